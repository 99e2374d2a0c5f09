import Verif.Props.Attr

/-!
# C83: setting the parts of an attribute/bind-type pair

Further theorems of C30, C31 and C32 on attributes.
-/

namespace Verif.Attr
open Verif Verif.Spec Verif.Misc Verif.Levels

/-! ## C83 -/

/-- The attribute an argument of `Set` can give. -/
def givesAttr : Arg → Option AttributeType
  | .at_ a => some a
  | .str s => some (AT s)
  | _ => none

/-- The bind type or value an argument that is no text can give. -/
def givesValue : Arg → Option Slot
  | .av a => some (.av a)
  | .bt b => some (.bt b)
  | _ => none

/-- The argument is a text. -/
def Arg.isText : Arg → Prop
  | .str _ => True
  | _ => False

private theorem set1_at (c : Cell) (y : Arg) :
    (set1 c y).at_ = (match c.at_ with | some a => some a | none => givesAttr y) := by
  cases h : c.at_ with
  | some a => cases y <;> simp only [set1, h] <;> (try split) <;> simp_all
  | none => cases y <;> simp only [set1, h, givesAttr] <;> (try split) <;> simp_all

/-- **C83.** The attribute of a pair is never replaced; a pair without attribute gets
the first attribute or text among the arguments. -/
theorem C83_attribute (c : Cell) (x : List Arg) :
    (c.set x).at_ = (match c.at_ with | some a => some a | none => x.findSome? givesAttr) := by
  induction x generalizing c with
  | nil => cases h : c.at_ <;> simp [Cell.set, h]
  | cons y x ih =>
    rw [Cell.set, List.foldl_cons]
    have ih' := ih (set1 c y)
    rw [Cell.set] at ih'
    rw [ih', set1_at]
    cases h : c.at_ with
    | some a => rfl
    | none => cases hg : givesAttr y <;> simp [hg]

/-- The full claim of C83 on the second part: as the comment of `set` says, a part that is
set is not assigned again. -/
def ValueKept : Prop := ∀ (c : Cell) (x : List Arg), c.v ≠ .nil → (c.set x).v = c.v

/-- **C83, negation**: a later text replaces the bind type. -/
theorem C83_counterexample : ¬ ValueKept := by
  intro h
  exact absurd (h ⟨some (some b!"cn"), .bt USERDN⟩ [.str b!"x"] (by decide)) (by decide)

/-- **C83, negation**, with the constructor: of two texts after the attribute the second
one is kept, of two values the first one. -/
theorem C83_counterexample_made :
    (mkABTV BindUAT [.str b!"manager", .str b!"USERDN", .str b!"GROUPDN"]).string = some b!"manager#GROUPDN" ∧
    (mkABTV BindUAT [.str b!"manager", .bt USERDN, .bt GROUPDN]).string = some b!"manager#USERDN" := by
  decide +kernel

/-- **C83, negation**: the zero value, which has no keyword, forgets what it was given
with every further call of `Set`. -/
theorem C83_counterexample_zero (x y : List Arg) :
    (ABTV.zero.set x).set y = ABTV.zero.set y := by
  have h : (ABTV.zero.set x).isZero = true := by simp [ABTV.set, ABTV.zero, ABTV.isZero]
  unfold ABTV.set at h ⊢
  rw [h]; rfl

/-- **C83, part.** Without texts among the arguments, a bind type or value that is set is
kept, and otherwise the first one given is taken.
Missing: with texts, see `C83_text_last`. -/
theorem C83_value_partial (c : Cell) (x : List Arg) (hx : ∀ a ∈ x, ¬ a.isText) :
    (c.set x).v = if c.v = .nil then (x.findSome? givesValue).getD .nil else c.v := by
  induction x generalizing c with
  | nil => by_cases h : c.v = .nil <;> simp [Cell.set, h]
  | cons y x ih =>
    have ih' := ih (set1 c y) (fun a ha => hx a (List.mem_cons_of_mem _ ha))
    have hy := hx y List.mem_cons_self
    rw [Cell.set] at ih'
    rw [Cell.set, List.foldl_cons, ih']
    by_cases h : c.v = .nil
    · cases y with
      | str s => exact absurd trivial hy
      | at_ a => simp only [set1]; split <;> simp [h, givesValue, List.findSome?_cons]
      | av a => simp [set1, h, givesValue, List.findSome?_cons]
      | bt a => simp [set1, h, givesValue, List.findSome?_cons]
      | other => simp [set1, h, givesValue, List.findSome?_cons]
    · cases y with
      | str s => exact absurd trivial hy
      | at_ a => simp only [set1]; split <;> simp [h]
      | av a => simp [set1, h]
      | bt a => simp [set1, h]
      | other => simp [set1, h]

/-- **C83, part.** With texts among the arguments, after the attribute is set: the last
text is taken for the bind type it names, in any letter case, or for the value it spells,
whatever the pair had before and whatever comes with it. -/
theorem C83_text_last (c : Cell) (x y : List Arg) (s : Str)
    (hc : c.at_ ≠ none ∨ ∃ a ∈ x, givesAttr a ≠ none) (hy : ∀ a ∈ y, ¬ a.isText) :
    (∀ b, BindTypeText b s → (c.set (x ++ .str s :: y)).v = .bt (btConst b)) ∧
    ((∀ b, ¬ BindTypeText b s) →
      (c.set (x ++ .str s :: y)).v = .av (if s = [] then none else some s)) := by
  have e : c.set (x ++ .str s :: y) = Cell.set (set1 (c.set x) (.str s)) y := by
    simp [Cell.set, List.foldl_append]
  have ha : (c.set x).at_ ≠ none := by
    rw [C83_attribute]
    rcases hc with hc | ⟨a, hm, hn⟩
    · cases h : c.at_ with
      | none => exact absurd h hc
      | some a => simp
    · cases h : c.at_ with
      | some a => simp
      | none =>
        exact fun hh => hn (List.findSome?_eq_none_iff.1 hh a hm)
  have e1 : (set1 (c.set x) (.str s)).v = slotOfStr s := by simp [set1, ha]
  have ne : slotOfStr s ≠ .nil := by unfold slotOfStr; split <;> simp
  have key : (c.set (x ++ .str s :: y)).v = slotOfStr s := by
    rw [e, C83_value_partial _ _ hy, if_neg (by rw [e1]; exact ne), e1]
  rw [key]
  refine ⟨fun b hb => ?_, fun hn => ?_⟩
  · rw [slotOfStr, matchBT_text hb, if_pos (btConst_ne b)]
  · rw [slotOfStr, matchBT_none hn, if_neg (by simp), AV]
    cases s <;> simp

example : (Cell.set ⟨none, .nil⟩ ([.bt USERDN, .str b!"manager"] ++ .str b!"groupdn" :: [.av none])).v =
    .bt GROUPDN :=
  (C83_text_last _ _ _ _ (.inr ⟨.str b!"manager", by simp, by simp [givesAttr]⟩)
    (by intro a h; simp at h; subst h; exact id)).1 .GROUPDN (by decide)

/-- **C83, part**, for pairs: `Set` on an initialized pair leaves the keyword and an attribute that is set, gives the
first attribute or text among the arguments to a pair without one, and, without texts among the arguments, leaves a
bind type or value that is set.  Missing: texts, as in `C83_text_last`. -/
theorem C83_pair_partial (r : ABTV) (c : Cell) (hr : r.isZero = false) (hc : r.cell = some c) (x : List Arg) :
    ∃ c', r.set x = ⟨r.kw, some c'⟩ ∧
      c'.at_ = (match c.at_ with | some a => some a | none => x.findSome? givesAttr) ∧
      ((∀ a ∈ x, ¬ a.isText) → c'.v = if c.v = .nil then (x.findSome? givesValue).getD .nil else c.v) ∧
      ∀ y z s, x = y ++ .str s :: z → (c.at_ ≠ none ∨ ∃ a ∈ y, givesAttr a ≠ none) → (∀ a ∈ z, ¬ a.isText) →
        (∀ b, BindTypeText b s → c'.v = .bt (btConst b)) ∧
        ((∀ b, ¬ BindTypeText b s) → c'.v = .av (if s = [] then none else some s)) := by
  refine ⟨c.set x, ?_, C83_attribute c x, C83_value_partial c x, ?_⟩
  · unfold ABTV.set
    rw [hr, hc]
  · rintro y z s rfl h1 h2
    exact C83_text_last c y z s h1 h2

/-- **C83** for the constructors: `ABTV`, `UAT` and `GAT` make a pair from nothing, in the same way. -/
theorem C83_made (kw : BindKeyword) (hk : kw = BindUAT ∨ kw = BindGAT) (x y : List Arg) :
    (∃ c, mkABTV kw x = ⟨kw, some c⟩ ∧ c.at_ = x.findSome? givesAttr ∧
      ((∀ a ∈ x, ¬ a.isText) → c.v = (x.findSome? givesValue).getD .nil)) ∧
    (mkABTV kw x).set y = mkABTV kw (x ++ y) := by
  have e : ∀ x, mkABTV kw x = ⟨kw, some (Cell.set ⟨none, .nil⟩ x)⟩ := fun x => by
    rw [mkABTV, if_pos hk]; rfl
  refine ⟨⟨_, e x, C83_attribute _ x, fun h => by rw [C83_value_partial _ x h]; simp⟩, ?_⟩
  have hz : (mkABTV kw x).isZero = false := by
    rw [e]; rcases hk with rfl | rfl <;> rfl
  unfold ABTV.set
  rw [hz, e, e]
  simp [Cell.set, List.foldl_append]

example : (mkABTV BindGAT [.str b!"manager"]).set [.at_ (some b!"other"), .bt USERDN] =
    mkABTV BindGAT [.str b!"manager", .at_ (some b!"other"), .bt USERDN] ∧
    (mkABTV BindGAT [.str b!"manager"]).isZero = false :=
  ⟨(C83_made BindGAT (.inr rfl) _ _).2, by decide⟩

/-! ## C30 -/

/-- **C30.** Whatever the arguments, `ABTV` makes a pair of the keyword asked for, and
makes nothing for the other keywords; the pair says `groupattr` exactly if this was asked
for.  `Set` does not change the keyword. -/
theorem C30_constructors (kw : BindKeyword) (x y : List Arg) :
    ((kw = BindUAT ∨ kw = BindGAT) →
      (mkABTV kw x).isZero = false ∧ (mkABTV kw x).kw = kw ∧ (mkABTV kw x).keyword = kw) ∧
    (¬ (kw = BindUAT ∨ kw = BindGAT) → (mkABTV kw x).isZero = true) ∧
    ((mkABTV kw x).keyword = BindGAT ↔ kw = BindGAT) ∧
    ((mkABTV kw x).set y).keyword = (mkABTV kw x).keyword := by
  have hz : (ABTV.zero).keyword = BindUAT := by decide
  have ne : BindUAT ≠ BindGAT := by decide
  refine ⟨?_, ?_, ?_, ?_⟩
  · rintro (rfl | rfl) <;> exact ⟨by rfl, by rfl, by rfl⟩
  · intro h; rw [mkABTV, if_neg h]; rfl
  · by_cases h : kw = BindUAT ∨ kw = BindGAT
    · rw [mkABTV, if_pos h]
      rcases h with rfl | rfl
      · exact ⟨fun e => absurd (show BindUAT = BindGAT from e) ne, fun e => absurd e ne⟩
      · exact ⟨fun _ => rfl, fun _ => rfl⟩
    · rw [mkABTV, if_neg h, hz]
      exact ⟨fun e => absurd e ne, fun e => absurd (.inr e) h⟩
  · have : ∀ A : ABTV, (A.set y).kw = A.kw := by
      intro A; unfold ABTV.set; split <;> rfl
    simp only [ABTV.keyword, this]

example : (mkABTV BindGAT [.str b!"manager", .bt USERDN]).keyword = BindGAT :=
  ((C30_constructors BindGAT _ []).1 (.inr rfl)).2.2

/-! ## C31, C32 -/

/-- **C32.** `AT` takes exactly the attribute names, and `*`; what it takes is kept as it
is. -/
theorem C32_type (s : Str) :
    (AttrName s → AT s = some s ∧ AttributeType.isZero (AT s) = false ∧ AttributeType.string (AT s) = s) ∧
    (¬ AttrName s → AttributeType.isZero (AT s) = true) := by
  constructor
  · intro h
    have e := (AT_some s).2 h
    refine ⟨e, ?_, by rw [e]; rfl⟩
    rw [e]
    have : s ≠ [] := by rintro rfl; exact absurd e (by decide)
    cases s with
    | nil => exact absurd rfl this
    | cons a t => rfl
  · intro h
    by_cases e : AT s = some s
    · exact absurd ((AT_some s).1 e) h
    · unfold AT at e ⊢
      split
      · next hh => rw [if_pos hh] at e; exact absurd rfl e
      · rfl

example : ¬ AttrName b!"2cn" ∧ AttrName b!"objectClass" :=
  ⟨fun h => absurd ((AT_some _).2 h) (by decide), (AT_some _).1 (by decide)⟩

end Verif.Attr
