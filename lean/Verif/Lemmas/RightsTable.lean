import Verif.Model.Rights
import Verif.Spec.Rights

/-!
Finite tables about permission words, decided by the kernel over all 1024 sets of
rights; `Verif.Lemmas.Rights` lifts them to arbitrary permissions.
-/

namespace Verif.Rights
open Verif Verif.Spec

/-- Position of a right in the word. -/
def idx : Priv → Nat
  | .read => 0 | .write => 1 | .add => 2 | .delete => 3 | .search => 4 | .compare => 5
  | .selfwrite => 6 | .proxy => 7 | .import_ => 8 | .export_ => 9

theorem table_bits : ∀ e ∈ rightsMap, ∀ p ∈ Priv.all,
    (e.1.getLsbD (idx p) = true ↔ p.NamedBy e.2) := by decide +kernel

theorem table_hi : ∀ e ∈ rightsMap, e.1.toNat < 1024 := by decide +kernel

/-- What `String` prints, as a function of the word alone. -/
def wordText (allow : Bool) (v : BitVec 16) : Str :=
  let d := if allow then b!"allow" else b!"deny"
  let w :=
    if v = AllAccess then [Right.string AllAccess]
    else if v.toNat = 1023 then [Right.string AllAccess, Right.string ProxyAccess]
    else if v = NoAccess then [Right.string NoAccess]
    else ((List.range 16).filter fun i => v.getLsbD i).map fun i => Right.string (BitVec.twoPow 16 i)
  d ++ b!"(" ++ Str.join b!"," w ++ b!")"

def heldOf (v : BitVec 16) (p : Priv) : Bool := v.getLsbD (idx p)

def words (v : BitVec 16) : List Str := permWords (heldOf v)

theorem wordText_table : ∀ n < 1024, ∀ a : Bool,
    wordText a (BitVec.ofNat 16 n) = permText a (heldOf (BitVec.ofNat 16 n)) := by
  decide +kernel

theorem tokens_table : ∀ n < 1024, ∀ a : Bool,
    permTokens (permText a (heldOf (BitVec.ofNat 16 n))) =
      (some a, words (BitVec.ofNat 16 n)) := by
  decide +kernel

/-- Add what a lower case word stands for. -/
def addName (v : BitVec 16) (w : Str) : BitVec 16 :=
  match rightsNames w with
  | some r => v ||| r
  | none => v

/-- Union of the known names of a list of lower case words. -/
def union (l : List Str) : BitVec 16 := l.foldl addName 0#16

theorem union_table : ∀ n < 1024, union (words (BitVec.ofNat 16 n)) = BitVec.ofNat 16 n := by
  decide +kernel

theorem lower_table : ∀ n < 1024,
    (words (BitVec.ofNat 16 n)).map Str.lower = words (BitVec.ofNat 16 n) := by
  decide +kernel

theorem len_table : ∀ n < 1024,
    ((List.range 16).filter fun i => (BitVec.ofNat 16 n).getLsbD i).length =
      (Priv.all.filter (heldOf (BitVec.ofNat 16 n))).length := by
  decide +kernel

end Verif.Rights
