import Verif.Model.Str

/-!
# The ten rights of ACIv3, and the text of a permission
-/

namespace Verif.Spec
open Verif

inductive Priv where
  | read | write | add | delete | search | compare | selfwrite | proxy | import_ | export_
  deriving DecidableEq

namespace Priv

/-- All rights, in the order in which a permission prints them. -/
def all : List Priv :=
  [read, write, add, delete, search, compare, selfwrite, proxy, import_, export_]

theorem mem_all (p : Priv) : p ∈ all := by cases p <;> decide

/-- The keyword of a right. -/
def name : Priv → Str
  | read => b!"read" | write => b!"write" | add => b!"add" | delete => b!"delete"
  | search => b!"search" | compare => b!"compare" | selfwrite => b!"selfwrite"
  | proxy => b!"proxy" | import_ => b!"import" | export_ => b!"export"

/-- The documented numeric value of a right. -/
def weight : Priv → Nat
  | read => 1 | write => 2 | add => 4 | delete => 8 | search => 16 | compare => 32
  | selfwrite => 64 | proxy => 128 | import_ => 256 | export_ => 512

/-- A (lower case) word stands for a right: by its own name, or by `all`, which
stands for every right but proxy. -/
def NamedBy (p : Priv) (word : Str) : Prop :=
  word = p.name ∨ (word = b!"all" ∧ p ≠ proxy)

/-- A number, read as a sum of documented values, contains a right. -/
def InSum (p : Priv) (n : Nat) : Prop := n / p.weight % 2 = 1

instance (p : Priv) (w : Str) : Decidable (NamedBy p w) := inferInstanceAs (Decidable (_ ∨ _))
instance (p : Priv) (n : Nat) : Decidable (InSum p n) := inferInstanceAs (Decidable (_ = _))

end Priv

/-- The words between the parentheses of a permission that holds the rights `held`. -/
def permWords (held : Priv → Bool) : List Str :=
  if Priv.all.all held then [b!"all", b!"proxy"]
  else if Priv.all.all fun p => held p == (p != .proxy) then [b!"all"]
  else if Priv.all.all fun p => !held p then [b!"none"]
  else (Priv.all.filter held).map Priv.name

/-- The text of a permission. -/
def permText (allow : Bool) (held : Priv → Bool) : Str :=
  (if allow then b!"allow" else b!"deny") ++ b!"(" ++ Str.join b!"," (permWords held) ++ b!")"

/-- The parts of the text of a permission: the word before the first parenthesis as
a flag, and the comma separated words after it. -/
def permTokens (text : Str) : Option Bool × List Str :=
  match Str.cut1 40 text with
  | none => (none, [])
  | some (d, rest) =>
    (if d = b!"allow" then some true else if d = b!"deny" then some false else none,
     Str.split1 44 rest.dropLast)

end Verif.Spec
