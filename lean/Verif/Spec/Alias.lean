import Verif.Model.Alias

/-!
# What sharing of storage means
-/

namespace Verif.Alias
open Verif

variable {K : Cls}

/-- Calling a method on one variable changes what no other variable stands for, at the
end of any program. -/
def Apart (K : Cls) : Prop :=
  ∀ (p : List (Stmt K)) (v w : Nat) (c : K.Call), v ≠ w →
    (((Mem.empty K).run p).exec (.call v c)).see w = ((Mem.empty K).run p).see w

/-- What was once read from variables, as a rule or a list keeps it, is the same after
any further program. -/
def Kept (K : Cls) : Prop :=
  ∀ (p q : List (Stmt K)) (v : Nat),
    (((Mem.empty K).run p).run q).look (((Mem.empty K).run p).vars v) =
      ((Mem.empty K).run p).see v

/-- The variables a statement mentions. -/
def Stmt.names : Stmt K → List Nat
  | .zero v => [v]
  | .make v _ => [v]
  | .copy w v => [w, v]
  | .call v _ => [v]
  | .assign w v _ => [w, v]

/-- No statement mentions variables both inside and outside `W`. -/
def Closed (W : Nat → Bool) (p : List (Stmt K)) : Prop :=
  ∀ s ∈ p, ∀ v ∈ s.names, ∀ w ∈ s.names, W v = W w

/-- Whether a statement is about variables in `W`. -/
def Stmt.within (W : Nat → Bool) (s : Stmt K) : Bool := s.names.any W

/-- The variable a statement calls a method on. -/
def Stmt.caller : Stmt K → Option Nat
  | .call v _ => some v
  | .assign _ v _ => some v
  | _ => none

/-- No method is called on a variable in `W`. -/
def Quiet (W : Nat → Bool) (p : List (Stmt K)) : Prop :=
  ∀ s ∈ p, ∀ v, s.caller = some v → W v = false

/-- Every name is set and has the keyword, and no two have the same text up to letter
case. -/
def GoodNames (F : EqualFold) (kw : BindKeyword) (ds : List DN.BindDN) : Prop :=
  (∀ d ∈ ds, ∃ w, d = some ⟨kw, some w⟩) ∧
    ds.Pairwise fun a b => F.eq (DN.BindDN.string a) (DN.BindDN.string b) = false

/-- A value is set in the sense of its type's `Set` or `Shift`: names and attribute
filters with some content, attribute pairs with a keyword, inheritances with such a
pair, permission bind rules with a part, and anything else that is not nil. -/
def Filled (e : Outside) : (t : Ty) → (cls e t).Tag × Option (cls e t).Obj → Prop
  | .bindDN, x => ∃ d t, x.2 = some ⟨d, some t⟩
  | .targetDN, x => ∃ d t, x.2 = some ⟨d, some t⟩
  | .attrFilter, x => ∃ a f : Option Str, x.2 = some (⟨a, f⟩ : Filter.Atf) ∧
      ((∃ s, f = some s ∧ s ≠ []) ∨ ∃ s, a = some s ∧ s ≠ [])
  | .inheritance, x => ∃ l k c, x.2 = some (⟨l, ⟨k, some c⟩⟩ : Levels.Inh) ∧ k ≠ 0
  | .pair, x => ∃ c, x.2 = some c ∧ x.1 ≠ (0 : UInt8)
  | .bound, x => ∃ s : PB.Store, x.2 = some s ∧ (s.p ≠ none ∨ s.b.isSome = true)
  | .filter, x => x.2.isSome = true
  | .permission, x => x.2.isSome = true
  | .days, x => x.2.isSome = true
  | .clock, x => x.2.isSome = true
  | .strength, x => x.2.isSome = true
  | .addresses, x => x.2.isSome = true
  | .host, x => x.2.isSome = true
  | .uri, x => x.2.isSome = true
  | .instruction, x => x.2.isSome = true

/-- What the method files of the model say a call returns. -/
def after (e : Outside) : (t : Ty) → (cls e t).Tag × Option (cls e t).Obj → (cls e t).Call →
    (cls e t).Tag × Option (cls e t).Obj
  | .bindDN, x, c => ((), DN.BindDN.set x.2 c.1 c.2)
  | .targetDN, x, c => ((), DN.TargetDN.set x.2 c.1 c.2)
  | .filter, x, c => ((), Filter.SearchFilter.set x.2 c)
  | .attrFilter, x, c => ((), Filter.AttributeFilter.set x.2 c)
  | .permission, x, c =>
    ((), if c.1 then Rights.shift e.S x.2 c.2 else Rights.unshift e.S x.2 c.2)
  | .inheritance, x, c => ((), if c.1 then Levels.shift x.2 c.2 else Levels.unshift x.2 c.2)
  | .days, x, c => ((), if c.1 then Time.shift x.2 c.2 else Time.unshift x.2 c.2)
  | .clock, x, c => ((), Time.set x.2 c)
  | .strength, x, c => ((), Sec.set x.2 c)
  | .addresses, x, c => ((), Net.IPAddr.set x.2 c)
  | .host, x, c => ((), Net.FQDN.set x.2 c)
  | .pair, x, c => ((Attr.ABTV.set ⟨x.1, x.2⟩ c).kw, (Attr.ABTV.set ⟨x.1, x.2⟩ c).cell)
  | .uri, x, c => ((), Uri.LDAPURI.set e.eq x.2 c)
  | .bound, x, c => ((), PB.set e.rd x.2 c)
  | .instruction, x, c => ((), Ins.set e.w e.rd x.2 c)

/-- What the constructor files of the model say is made. -/
def made (e : Outside) : (t : Ty) → (cls e t).Ctor → (cls e t).Tag × Option (cls e t).Obj
  | .bindDN, c => ((), some (DN.newDN c.2 c.1))
  | .targetDN, c => ((), some (DN.newDN c.2 c.1))
  | .filter, c => ((), Filter.mkFilter c)
  | .attrFilter, c => ((), Filter.AF c)
  | .permission, c => ((), if c.1 then Rights.Allow e.S c.2 else Rights.Deny e.S c.2)
  | .inheritance, c => ((), Levels.Inherit c.1 c.2)
  | .days, c => ((), Time.DoW c)
  | .clock, c => ((), Time.ToD c.toList)
  | .strength, c => ((), Sec.SSF c.toList)
  | .addresses, c => ((), Net.IP c)
  | .host, c => ((), Net.DNS c)
  | .pair, c => ((Attr.mkABTV c.1 c.2).kw, (Attr.mkABTV c.1 c.2).cell)
  | .uri, c => ((), Uri.mkURI e.eq c)
  | .bound, c => ((), PB.PBR c.1 c.2)
  | .instruction, c => ((), Ins.ACI e.w e.rd c)

end Verif.Alias
