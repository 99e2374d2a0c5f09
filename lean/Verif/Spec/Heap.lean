import Verif.Model.Heap
import Verif.Spec.Target

/-!
# What an instruction is made of, and what a statement stores
-/

namespace Verif.Heap
open Verif

/-- A piece of storage. -/
inductive Cell where
  | perm (a : Nat)
  | ctx (a : Nat)
  | pbr (a : Nat)
  | plist (l : Nat)
  | trule (a : Nat)
  | tlist (l : Nat)
  | ins (i : Nat)
  | ilist (l : Nat)

/-- The instruction at `i` is made of this storage. -/
inductive Reads (m : Mem) (i : Nat) : Cell → Prop where
  | ins : Reads m i (.ins i)
  | tlist {c : ICell} : m.inss[i]? = some c → Reads m i (.tlist c.t)
  | trule {c : ICell} {es : List Nat} {a : Nat} : m.inss[i]? = some c → m.tlists[c.t]? = some es → a ∈ es →
      Reads m i (.trule a)
  | plist {c : ICell} : m.inss[i]? = some c → Reads m i (.plist c.p)
  | pbr {c : ICell} {es : List Nat} {a : Nat} : m.inss[i]? = some c → m.plists[c.p]? = some es → a ∈ es →
      Reads m i (.pbr a)
  | perm {a q : Nat} {d : PCell} : Reads m i (.pbr a) → m.pbrs[a]? = some d → d.p = some q →
      Reads m i (.perm q)
  | ctx {a b : Nat} {d : PCell} : Reads m i (.pbr a) → m.pbrs[a]? = some d → d.b = some b →
      Reads m i (.ctx b)

/-- The statement may change this storage, which was there before. -/
def Writes (m : Mem) : Stmt → Cell → Prop
  | .shift a _, c => c = .perm a
  | .unshift a _, c => c = .perm a
  | .ctxTo a _, c => c = .ctx a
  | .pbrSet a _, c => c = .pbr a
  | .ppush l _, c => c = .plist l
  | .ppop l, c => c = .plist l
  | .tset a _, c => c = .trule a
  | .tpush l _, c => c = .tlist l
  | .tpop l, c => c = .tlist l
  | .iset i _, c => c = .ins i ∨ ∃ d, m.inss[i]? = some d ∧ (c = .tlist d.t ∨ c = .plist d.p)
  | .ipush l _, c => c = .ilist l
  | .ipop l, c => c = .ilist l
  | _, _ => False

/-- The statement is a call on the instruction at `i` or on one of its two lists. -/
def CallOn (m : Mem) (i : Nat) (s : Stmt) : Prop :=
  Writes m s (.ins i) ∨ ∃ d, m.inss[i]? = some d ∧ (Writes m s (.tlist d.t) ∨ Writes m s (.plist d.p))

/-- The permission bind rule at `a` is made of this storage. -/
def ReadsP (m : Mem) (a : Nat) : Cell → Prop
  | .pbr b => b = a
  | .perm q => ∃ d, m.pbrs[a]? = some d ∧ d.p = some q
  | .ctx b => ∃ d, m.pbrs[a]? = some d ∧ d.b = some b
  | _ => False

/-- The statement changes nothing that a permission bind rule in a list is made of. -/
def Quiet (m : Mem) (s : Stmt) : Prop :=
  ∀ es ∈ m.plists, ∀ a ∈ es, ∀ c, Writes m s c → ¬ ReadsP m a c

/-- So does every statement of a program, when its turn comes. -/
def QuietRun (o : Outside) (m : Mem) : List Stmt → Prop
  | [] => True
  | s :: p => Quiet m s ∧ QuietRun o (m.exec o s) p

/-- The statement changes nothing that an instruction in a list is made of. -/
def QuietI (m : Mem) (s : Stmt) : Prop :=
  ∀ es ∈ m.ilists, ∀ i ∈ es, ∀ c, Writes m s c → ¬ Reads m i c

/-- So does every statement of a program, when its turn comes. -/
def QuietIRun (o : Outside) (m : Mem) : List Stmt → Prop
  | [] => True
  | s :: p => QuietI m s ∧ QuietIRun o (m.exec o s) p

/-- No statement of the program changes what the instruction at `i` is made of. -/
def Avoids (o : Outside) (m : Mem) (i : Nat) : List Stmt → Prop
  | [] => True
  | s :: p => (∀ c, Writes m s c → ¬ Reads m i c) ∧ Avoids o (m.exec o s) i p

/-- What an argument of `Instruction.Set` is for the program that looks at it. -/
def ISet.see (m : Mem) : ISet → Ins.SetArg
  | .str s => .str s
  | .trs (some l) => .trs (m.seeT l)
  | .trs none => .trs []
  | .tr (some a) => .tr (Held.at_ m.trules a)
  | .tr none => .tr Rules.badTargetRule
  | .pbr (some a) => .pbr (m.seeP a)
  | .pbr none => .pbr none
  | .pbrs (some l) => .pbrs (m.seePs l)
  | .pbrs none => .pbrs []
  | .other => .other

/-- What an argument of `PermissionBindRule.Set` is for the program that looks at it. -/
def PSet.see (m : Mem) : PSet → PB.SetArg
  | .perm a => .perm (a.bind fun q => m.perms[q]?)
  | .ctx a => .ctx ((m.ctxs[a]?).getD .zero)
  | .other => .other

/-- The argument is one of the two lists. -/
def ISet.Own (t p : Nat) (x : ISet) : Prop := x = .trs (some t) ∨ x = .pbrs (some p)

end Verif.Heap
