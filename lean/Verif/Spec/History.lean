/-!
# Histories of switching items on and off

Used to state C01, C06 and C10: an item is on after a history exactly when the
last operation that mentions it switched it on.
-/

namespace Verif.Spec

/-- One operation: switch what `arg` mentions on or off. -/
structure Op (α : Type) where
  on : Bool
  arg : α

/-- The item described by `mentions` is on after the history `h` (oldest operation
first), when it was in state `start` before: some operation switched it on and no
later one mentions it, or it was on and no operation mentions it. -/
def HeldAfter {α : Type} (mentions : α → Prop) (start : Prop) (h : List (Op α)) : Prop :=
  (∃ pre x post, h = pre ++ ⟨true, x⟩ :: post ∧ mentions x ∧ ∀ op ∈ post, ¬ mentions op.arg) ∨
  (start ∧ ∀ op ∈ h, ¬ mentions op.arg)

end Verif.Spec
