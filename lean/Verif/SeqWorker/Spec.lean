/-
Specification for the sequence worker: which request histories a client may make.
-/
namespace Verif.SeqWorker.Spec

/-- Requests after request `last`: never backwards, and never skipping more than the buffer can hold. -/
def Follows (buffer : Nat) : Nat → List Nat → Prop
  | _, [] => True
  | last, i :: rest => last ≤ i ∧ i ≤ last + buffer ∧ Follows buffer i rest

/-- A legal history of requests from the start: the first request is within the buffer, then `Follows`. -/
def Legal (buffer : Nat) : List Nat → Prop
  | [] => True
  | i :: rest => i < buffer ∧ Follows buffer i rest

end Verif.SeqWorker.Spec
