import Verif.SprintData.Model
import Mathlib.Logic.Relation
/-
What a reader may call, and what it should get.
-/
namespace Verif.SprintData

variable {α : Type}

/-- All steps of the threads, in any interleaving. -/
def Run (client : List (COp × CRes α) → Option COp) : St α → St α → Prop := Relation.ReflTransGen (Step client)

/-- Where the newest non-empty load started. -/
def lastStart : List (COp × CRes α) → Nat
  | [] => 0
  | (.load s e, _) :: r => if s = e then lastStart r else s
  | _ :: r => lastStart r

/-- The reader goes forward: it asks for nothing before the start of its newest load. -/
def Forward (h : List (COp × CRes α)) : COp → Prop
  | .initEpoch _ => False
  | .less n => lastStart h ≤ n
  | .load s e => s ≤ e ∧ lastStart h ≤ s
  | .get i => lastStart h ≤ i

/-- The calls are those which the reader makes. -/
def Own (client : List (COp × CRes α) → Option COp) : List (COp × CRes α) → Prop
  | [] => True
  | (op, _) :: h => client h = some op ∧ Own client h

/-- A reader which only goes forward, within one epoch, whatever it gets. -/
def ForwardClient (client : List (COp × CRes α) → Option COp) : Prop := ∀ h op, Own client h → client h = some op → Forward h op

/-- The right result of a call for the sequences of the epoch. -/
def RightRes (items : List α) : COp → CRes α → Prop
  | .initEpoch _, r => r = .unit
  | .less n, r => r = .bool (decide (n < items.length))
  | .load _ _, r => r = .unit
  | .get i, r => match items[i]? with | some x => r = .data x | none => r = .noData

/-- Runs with the number of steps. -/
inductive RunN (client : List (COp × CRes α) → Option COp) : Nat → St α → St α → Prop
  | refl (s : St α) : RunN client 0 s s
  | tail {n : Nat} {s t u : St α} (h : RunN client n s t) (hs : Step client t u) : RunN client (n + 1) s u

end Verif.SprintData
