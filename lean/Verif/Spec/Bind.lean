import Verif.Model.Bind
import Verif.Spec.Keyword
import Verif.Spec.Time

/-!
# The meaning of bind rules

`neg` is the meaning of a NOT stack; nothing is assumed of it.
-/

namespace Verif.Bind
open Verif Verif.Spec Verif.Levels

/-- The truth value of a stack, from those of its entries. -/
def Word.eval (neg : List Bool → Bool) : Word → List Bool → Bool
  | .and, l => l.all id
  | .or, l => l.any id
  | .not, l => neg l

mutual

/-- The truth value of a bind context when the rules have the truth values `τ`; an
uninitialized stack states no condition. -/
def BCtx.eval (neg : List Bool → Bool) (τ : BRule → Bool) : BCtx → Bool
  | .rule r => τ r
  | .zero => true
  | .rules w _ es => w.eval neg (BCtx.evals neg τ es)

def BCtx.evals (neg : List Bool → Bool) (τ : BRule → Bool) : List BCtx → List Bool
  | [] => []
  | e :: es => BCtx.eval neg τ e :: BCtx.evals neg τ es

end

/-- The words a parsed stack may have, in any letter case. -/
def kindOf (k : Str) : Option Word :=
  if Str.eqFold k b!"AND" then some .and
  else if Str.eqFold k b!"OR" then some .or
  else if Str.eqFold k b!"NOT" ∨ Str.eqFold k b!"AND NOT" then some .not
  else none

/-- The truth value of a parsed stack. -/
def kindEval (neg : List Bool → Bool) (k : Str) (l : List Bool) : Bool :=
  match kindOf k with
  | some w => w.eval neg l
  | none => true

mutual

/-- The truth value of what was parsed when the parsed conditions have the truth values
`σ`. -/
def PTree.eval (neg : List Bool → Bool) (σ : BRule → Bool) : PTree → Bool
  | .cond r => σ r
  | .stack k _ es => kindEval neg k (PTree.evals neg σ es)
  | .other => true

def PTree.evals (neg : List Bool → Bool) (σ : BRule → Bool) : List PTree → List Bool
  | [] => []
  | e :: es => PTree.eval neg σ e :: PTree.evals neg σ es

end

mutual

/-- Every stack has a known word, and holds conditions and stacks only. -/
def PTree.Known : PTree → Prop
  | .cond _ => True
  | .stack k _ es => kindOf k ≠ none ∧ PTree.AllKnown es
  | .other => False

def PTree.AllKnown : List PTree → Prop
  | [] => True
  | e :: es => PTree.Known e ∧ PTree.AllKnown es

end

mutual

/-- The conditions of a parsed tree, in order. -/
def PTree.conds : PTree → List BRule
  | .cond r => [r]
  | .stack _ _ es => PTree.condsAll es
  | .other => []

def PTree.condsAll : List PTree → List BRule
  | [] => []
  | e :: es => PTree.conds e ++ PTree.condsAll es

end

mutual

/-- The rules of a bind context, in order. -/
def BCtx.leaves : BCtx → List BRule
  | .rule r => [r]
  | .zero => []
  | .rules _ _ es => BCtx.leavesAll es

def BCtx.leavesAll : List BCtx → List BRule
  | [] => []
  | e :: es => BCtx.leaves e ++ BCtx.leavesAll es

end

mutual

/-- Every stack has an entry. -/
def PTree.Filled : PTree → Prop
  | .stack _ _ es => es ≠ [] ∧ PTree.AllFilled es
  | _ => True

def PTree.AllFilled : List PTree → Prop
  | [] => True
  | e :: es => PTree.Filled e ∧ PTree.AllFilled es

end

/-- A condition of the parser with keyword `k` and these values. -/
def RawBind (r : BRule) (k : BKw) (style : Int) (vs : List Str) : Prop :=
  Str.eqFold r.core.kw k.name = true ∧ r.ex = .raw style vs

/-- The condition `r` of the parser is read as the bind rule `r'`. -/
def Reads (env : Env) (r r' : BRule) : Prop := r.assertValue env = .ok r'

/-- The conditions are read as the rules, one by one. -/
inductive ReadsAll (env : Env) : List BRule → List BRule → Prop where
  | nil : ReadsAll env [] []
  | cons {r r' : BRule} {rs rs' : List BRule} : Reads env r r' → ReadsAll env rs rs' →
      ReadsAll env (r :: rs) (r' :: rs')

/-- Whether the condition can be read. -/
def readable (env : Env) (r : BRule) : Bool :=
  match r.assertValue env with
  | .ok _ => true
  | _ => false

/-- The condition can be read, it is complete, and what is read has a text. -/
def Good (env : Env) (r : BRule) : Prop :=
  readable env r = true ∧ r.core.init = true ∧ r.core.op ≠ 0 ∧
    ∀ r' a, Reads env r r' → r'.ex = .pair a → a.string ≠ none

/-- A parsed condition and what it is read as have the same truth value. -/
def Agree (env : Env) (σ τ : BRule → Bool) : Prop := ∀ r r', Reads env r r' → τ r' = σ r

mutual

/-- The tree without the entries of a stack from its first condition on that cannot be read;
`ok` tells which can be read. -/
def PTree.cut (ok : BRule → Bool) : PTree → PTree
  | .stack k p es => .stack k p (PTree.cuts ok es)
  | t => t

def PTree.cuts (ok : BRule → Bool) : List PTree → List PTree
  | [] => []
  | .cond r :: es => if ok r then .cond r :: PTree.cuts ok es else []
  | .stack k p sub :: es => .stack k p (PTree.cuts ok sub) :: PTree.cuts ok es
  | .other :: es => .other :: PTree.cuts ok es

end

/-- What is assumed of the texts of bind contexts. -/
structure Printer where
  text : BCtx → Str
  rule : ∀ r, r.valid = true → text (.rule r) ≠ []
  some_entry : ∀ w p es e, e ∈ es → text e ≠ [] → text (.rules w p es) ≠ []
  no_entry : ∀ w p, text (.rules w p []) = []
  zero : text .zero = []

/-! ## Envelopes -/

/-- The first context is a redundant envelope of the second: an AND or OR stack without
parentheses, with a stack as its only entry. -/
inductive Envelope : BCtx → BCtx → Prop where
  | mk {w : Word} {e : BCtx} : w ≠ .not → e.isStack = true → Envelope (.rules w false [e]) e

/-- The second context is what is left when envelopes are removed. -/
inductive Strips : BCtx → BCtx → Prop where
  | done (e : BCtx) : Strips e e
  | step {a b c : BCtx} : Envelope a b → Strips b c → Strips a c

mutual

/-- The number of negations. -/
def BCtx.nots : BCtx → Nat
  | .rules w _ es => (if w = .not then 1 else 0) + BCtx.notsAll es
  | _ => 0

def BCtx.notsAll : List BCtx → Nat
  | [] => 0
  | e :: es => BCtx.nots e + BCtx.notsAll es

end

mutual

/-- The number of stacks in parentheses. -/
def BCtx.groups : BCtx → Nat
  | .rules _ p es => (if p then 1 else 0) + BCtx.groupsAll es
  | _ => 0

def BCtx.groupsAll : List BCtx → Nat
  | [] => 0
  | e :: es => BCtx.groups e + BCtx.groupsAll es

end

/-! ## Lists of bind contexts -/

/-- The bind context can be put into a list: a rule whose text of the keyword is a bind
keyword, in any letter case, or an initialized list. -/
def Usable : BCtx → Prop
  | .rule r => ∃ k : BKw, Str.eqFold r.core.kw k.name = true
  | .zero => False
  | .rules _ _ _ => True

/-- A call that changes a list of bind contexts. -/
inductive BCall where
  | push (stop : Bool) (xs : List BArg)
  | pop

def BCall.run (es : List BCtx) : BCall → List BCtx
  | .push stop xs => pushB stop es xs
  | .pop => (popB es).1

/-! ## Clock times -/

/-- A clock time, or 24:00. -/
def Clock (h m : Nat) : Prop := (h < 24 ∧ m < 60) ∨ (h = 24 ∧ m = 0)

/-- `a q b` for an operator `q`. -/
def _root_.Verif.Spec.Rel.holds : Rel → Nat → Nat → Bool
  | .eq, a, b => decide (a = b)
  | .ne, a, b => decide (a ≠ b)
  | .lt, a, b => decide (a < b)
  | .gt, a, b => decide (a > b)
  | .le, a, b => decide (a ≤ b)
  | .ge, a, b => decide (a ≥ b)

end Verif.Bind
