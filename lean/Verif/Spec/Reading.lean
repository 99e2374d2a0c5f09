import Verif.Spec.Misc
import Verif.Model.Levels

/-!
# White space outside and inside of quotation marks
-/

namespace Verif.Spec
open Verif

/-- The text with one blank for each run of white space outside of quotation marks, and all
else as it is; `inq`: within marks, `pend`: after white space. -/
def outer (inq pend : Bool) : Str → Str
  | [] => []
  | c :: t =>
    if inq then c :: outer (c ≠ 34) false t
    else if White c then outer false true t
    else if pend then 32 :: c :: outer (c = 34) false t
    else c :: outer (c = 34) false t

/-- The text without white space at its ends and without runs of white space outside of
quotation marks. -/
def shape (s : Str) : Str := outer false false (s.dropWhile White)

/-- A reader to which white space outside of quotation marks makes no difference. -/
def Tolerant {τ : Type} (parser : Str → Option τ) : Prop := ∀ s s', shape s = shape s' → parser s = parser s'

/-- All quotation marks are closed, and there is no tab, line feed or run of blanks between
them; `last`: after a blank. -/
def Quiet (inq last : Bool) : Str → Prop
  | [] => inq = false
  | c :: t =>
    if c = 34 then Quiet (!inq) false t
    else if inq = false then Quiet false false t
    else c ≠ 9 ∧ c ≠ 10 ∧ (c = 32 → last = false) ∧ Quiet true (c = 32) t

/-- What a method that reads a text into a receiver does depends on the text only: it
replaces all that the receiver holds and reports success, or leaves the receiver alone and
reports an error, or panics. -/
def AllOrNothing {σ : Type} (f : σ → Str → Levels.Outcome (σ × Bool)) : Prop :=
  ∀ raw, (∃ new, ∀ r, f r raw = .ok (new, true)) ∨ (∀ r, f r raw = .ok (r, false)) ∨ (∀ r, f r raw = .panic)

/-- The texts that stand for a value replace whatever the receiver holds by this value, and no
other text changes the receiver. -/
def StoresJust {σ : Type} (f : σ → Str → Levels.Outcome (σ × Bool)) (P : Str → σ → Prop) : Prop :=
  (∀ raw v, P raw v → ∀ r, f r raw = .ok (v, true)) ∧
  (∀ raw, (∀ v, ¬ P raw v) → ∀ r, f r raw = .ok (r, false))

/-- A receiver after reading several texts one after the other. -/
inductive AfterReading {σ : Type} (f : σ → Str → Levels.Outcome (σ × Bool)) (r : σ) : List Str → σ → Prop where
  | nil : AfterReading f r [] r
  | step {raws : List Str} {a b : σ} {raw : Str} {ok : Bool} :
      AfterReading f r raws a → f a raw = .ok (b, ok) → AfterReading f r (raws ++ [raw]) b

/-- The receiver is what it was, and no text could be read; or it is what the last text says
that could be read. -/
def LastGood {σ : Type} (f : σ → Str → Levels.Outcome (σ × Bool)) (r : σ) (raws : List Str) (b : σ) : Prop :=
  (b = r ∧ ∀ raw ∈ raws, ∀ x, f x raw = .ok (x, false)) ∨
  ∃ us raw vs, raws = us ++ raw :: vs ∧ (∀ x, f x raw = .ok (b, true)) ∧
    ∀ v ∈ vs, ∀ x, f x v = .ok (x, false)

end Verif.Spec
