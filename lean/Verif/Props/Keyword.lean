import Verif.Lemmas.Keyword

/-!
# C17 to C20, C57: keywords and operators
-/

namespace Verif
open Verif Verif.Misc Verif.Spec

/-- The exported constant of each bind keyword. -/
def bkwConst : BKw → BindKeyword
  | .userdn => BindUDN | .roledn => BindRDN | .groupdn => BindGDN | .userattr => BindUAT
  | .groupattr => BindGAT | .ip => BindIP | .dns => BindDNS | .dayofweek => BindDoW
  | .timeofday => BindToD | .authmethod => BindAM | .ssf => BindSSF

/-- The exported constant of each target keyword. -/
def tkwConst : TKw → TargetKeyword
  | .target => Target | .target_to => TargetTo | .targetattr => TargetAttr
  | .targetcontrol => TargetCtrl | .target_from => TargetFrom | .targetscope => TargetScope
  | .targetfilter => TargetFilter | .targattrfilters => TargetAttrFilters | .extop => TargetExtOp

/-- The exported constant of each bind type. -/
def btConst : BTy → BindType
  | .USERDN => USERDN | .GROUPDN => GROUPDN | .ROLEDN => ROLEDN | .SELFDN => SELFDN
  | .LDAPURL => LDAPURL

private theorem lookup_exact {α : Type} (m0 m : List (UInt8 × Str)) (hm : m.Perm m0)
    (hd : FoldDistinct m0) (const : α → UInt8) (name : α → Str)
    (hmem : ∀ k, (const k, name k) ∈ m0) (hcov : ∀ e ∈ m0, ∃ k, e = (const k, name k))
    (hinj : ∀ k l, const k = const l → k = l) (hne : ∀ k, const k ≠ 0) (s : Str) :
    (∀ k, matchOn m s = const k ↔ Str.eqFold s (name k) = true) ∧
      (matchOn m s = 0 ↔ ∀ k, Str.eqFold s (name k) = false) := by
  have hdm := hd.perm hm
  have hof : ∀ k, Str.eqFold s (name k) = true → matchOn m s = const k := fun k h =>
    matchOn_of_mem hdm (hm.mem_iff.2 (hmem k)) h
  refine ⟨fun k => ⟨fun h => ?_, hof k⟩, ⟨fun h k => ?_, fun h => ?_⟩⟩
  · obtain ⟨n, h1, h2⟩ := matchOn_mem (m := m) (kw := s) (by rw [h]; exact hne k)
    obtain ⟨l, hl⟩ := hcov _ (hm.mem_iff.1 h1)
    rw [h] at hl
    simp only [Prod.mk.injEq] at hl
    rw [hinj _ _ hl.1]; rw [← hl.2]; exact h2
  · cases hb : Str.eqFold s (name k) with
    | false => rfl
    | true => have := hof k hb; rw [h] at this; exact absurd this.symm (hne k)
  · apply matchOn_none
    intro e he
    obtain ⟨k, rfl⟩ := hcov e (hm.mem_iff.1 he)
    exact h k

/-- **C17** for bind keywords, in every iteration order of the map. -/
theorem C17_bind_keywords (m : List (BindKeyword × Str)) (hm : m.Perm bkwMap) (s : Str) :
    (∀ k : BKw, matchOn m s = bkwConst k ↔ Str.eqFold s k.name = true) ∧
      (matchOn m s = 0 ↔ ∀ k : BKw, Str.eqFold s k.name = false) ∧
      ∀ k : BKw, BindKeyword.string (bkwConst k) = k.name := by
  have := lookup_exact bkwMap m hm bkw_distinct bkwConst BKw.name (by intro k; cases k <;> decide)
    (by
      have : ∀ e ∈ bkwMap, ∃ k ∈ [BKw.userdn, .roledn, .groupdn, .userattr, .groupattr, .ip, .dns,
          .dayofweek, .timeofday, .authmethod, .ssf], e = (bkwConst k, k.name) := by decide
      intro e he; obtain ⟨k, _, h⟩ := this e he; exact ⟨k, h⟩)
    (by intro k l h; cases k <;> cases l <;> first | rfl | (exact absurd h (by decide)))
    (by intro k; cases k <;> decide) s
  exact ⟨this.1, this.2, by intro k; cases k <;> decide⟩

/-- **C17** for target keywords. -/
theorem C17_target_keywords (m : List (TargetKeyword × Str)) (hm : m.Perm tkwMap) (s : Str) :
    (∀ k : TKw, matchOn m s = tkwConst k ↔ Str.eqFold s k.name = true) ∧
      (matchOn m s = 0 ↔ ∀ k : TKw, Str.eqFold s k.name = false) ∧
      ∀ k : TKw, TargetKeyword.string (tkwConst k) = k.name := by
  have := lookup_exact tkwMap m hm tkw_distinct tkwConst TKw.name (by intro k; cases k <;> decide)
    (by
      have : ∀ e ∈ tkwMap, ∃ k ∈ [TKw.target, .target_to, .targetattr, .targetcontrol, .target_from,
          .targetscope, .targetfilter, .targattrfilters, .extop], e = (tkwConst k, k.name) := by decide
      intro e he; obtain ⟨k, _, h⟩ := this e he; exact ⟨k, h⟩)
    (by intro k l h; cases k <;> cases l <;> first | rfl | (exact absurd h (by decide)))
    (by intro k; cases k <;> decide) s
  exact ⟨this.1, this.2, by intro k; cases k <;> decide⟩

/-- **C17** for bind types. -/
theorem C17_bind_types (m : List (BindType × Str)) (hm : m.Perm btMap) (s : Str) :
    (∀ k : BTy, matchOn m s = btConst k ↔ Str.eqFold s k.name = true) ∧
      (matchOn m s = 0 ↔ ∀ k : BTy, Str.eqFold s k.name = false) ∧
      ∀ k : BTy, BindType.string (btConst k) = k.name := by
  have := lookup_exact btMap m hm bt_distinct btConst BTy.name (by intro k; cases k <;> decide)
    (by
      have : ∀ e ∈ btMap, ∃ k ∈ [BTy.USERDN, .GROUPDN, .ROLEDN, .SELFDN, .LDAPURL],
          e = (btConst k, k.name) := by decide
      intro e he; obtain ⟨k, _, h⟩ := this e he; exact ⟨k, h⟩)
    (by intro k l h; cases k <;> cases l <;> first | rfl | (exact absurd h (by decide)))
    (by intro k; cases k <;> decide) s
  exact ⟨this.1, this.2, by intro k; cases k <;> decide⟩

/-- **C17.** Values that are not keyword constants print as invalid, never as a
keyword. -/
theorem C17_invalid_text (v : UInt8) :
    ((∀ k, bkwConst k ≠ v) → BindKeyword.string v = b!"<invalid_bind_keyword>") ∧
    ((∀ k, tkwConst k ≠ v) → TargetKeyword.string v = b!"<invalid_target_keyword>") ∧
    ((∀ k, btConst k ≠ v) → BindType.string v = b!"<invalid_bind_type>") := by
  have key : ∀ (m : List (UInt8 × Str)) (d : Str), (∀ e ∈ m, e.1 ≠ v) → lookupD m d v = d := by
    intro m d h
    unfold lookupD
    rw [List.find?_eq_none.2 (by intro e he; simpa using h e he)]
  refine ⟨fun h => key _ _ ?_, fun h => key _ _ ?_, fun h => key _ _ ?_⟩
  · intro e he
    have : ∀ e ∈ bkwMap, ∃ k ∈ [BKw.userdn, .roledn, .groupdn, .userattr, .groupattr, .ip, .dns,
      .dayofweek, .timeofday, .authmethod, .ssf], bkwConst k = e.1 := by decide
    obtain ⟨k, _, hk⟩ := this e he
    rw [← hk]; exact h k
  · intro e he
    have : ∀ e ∈ tkwMap, ∃ k ∈ [TKw.target, .target_to, .targetattr, .targetcontrol, .target_from,
      .targetscope, .targetfilter, .targattrfilters, .extop], tkwConst k = e.1 := by decide
    obtain ⟨k, _, hk⟩ := this e he
    rw [← hk]; exact h k
  · intro e he
    have : ∀ e ∈ btMap, ∃ k ∈ [BTy.USERDN, .GROUPDN, .ROLEDN, .SELFDN, .LDAPURL],
      btConst k = e.1 := by decide
    obtain ⟨k, _, hk⟩ := this e he
    rw [← hk]; exact h k

example : matchOn bkwMap.reverse b!"TimeOfDay" = BindToD ∧ matchOn bkwMap b!"time" = 0 := by
  decide

/-- An argument of `SetOperator` denotes an operator: as the constant, or by one of
its texts in any letter case. -/
def OpDenotes (a : OpArg) (q : Rel) : Prop :=
  match a with
  | .cop c => c = relConst q
  | .str s => ∃ t ∈ q.texts, Str.eqFold s t = true
  | _ => False

private theorem allows_bind (k : BKw) (q : Rel) :
    allowsIn permittedBind (bkwConst k) (relConst q) = k.allows q := by
  cases k <;> cases q <;> decide

private theorem allows_target (k : TKw) (q : Rel) :
    allowsIn permittedTarget (tkwConst k) (relConst q) = k.allows q := by
  cases k <;> cases q <;> decide

private theorem allowsIn_rel {m : List (UInt8 × List Cop)} (hm : ∀ e ∈ m, ∀ c ∈ e.2, ∃ r, relConst r = c)
    {k : UInt8} {c : Cop} (h : allowsIn m k c = true) : ∃ r, relConst r = c := by
  unfold allowsIn at h
  split at h
  · rename_i e he
    obtain ⟨c', hc, heq⟩ := List.any_eq_true.1 h
    simp at heq; subst heq
    exact hm e (List.mem_of_find?_eq_some he) c' hc
  · cases h

private theorem pb_rel : ∀ e ∈ permittedBind, ∀ c ∈ e.2, ∃ r, relConst r = c := by
  intro e he c hc
  have : ∀ e ∈ permittedBind, ∀ c ∈ e.2, ∃ r ∈ relAll, relConst r = c := by decide
  obtain ⟨r, _, h⟩ := this e he c hc
  exact ⟨r, h⟩

private theorem pt_rel : ∀ e ∈ permittedTarget, ∀ c ∈ e.2, ∃ r, relConst r = c := by
  intro e he c hc
  have : ∀ e ∈ permittedTarget, ∀ c ∈ e.2, ∃ r ∈ relAll, relConst r = c := by decide
  obtain ⟨r, _, h⟩ := this e he c hc
  exact ⟨r, h⟩

private theorem matchCOP_denotes {s : Str} {q : Rel} (h : ∃ t ∈ q.texts, Str.eqFold s t = true) :
    matchCOP s = relConst q :=
  matchCOPOn_eq copMap_rel h (relConst_mem q)

private theorem matchCOP_none {s : Str} (h : ∀ q : Rel, ¬ ∃ t ∈ q.texts, Str.eqFold s t = true) :
    matchCOP s = 0 := by
  apply matchCOPOn_zero copMap_rel
  intro r t ht
  cases hb : Str.eqFold s t with
  | false => rfl
  | true => exact absurd ⟨t, ht, hb⟩ (h r)

private theorem bkw_match {s : Str} {k : BKw} (h : Str.eqFold s k.name = true) :
    matchBKW s = bkwConst k :=
  ((C17_bind_keywords bkwMap (List.Perm.refl _) s).1 k).2 h

private theorem tkw_match {s : Str} {k : TKw} (h : Str.eqFold s k.name = true) :
    matchTKW s = tkwConst k :=
  ((C17_target_keywords tkwMap (List.Perm.refl _) s).1 k).2 h

/-- **C18** for bind rules: `SetOperator` on an initialised rule whose keyword is `k`
stores the operator its argument denotes if ACIv3 allows it with `k`; otherwise, and
for every argument that denotes no operator, the rule stays as it was. -/
theorem C18_bind_set_operator (r : RuleCore) (hr : r.init = true) (k : BKw)
    (hk : Str.eqFold r.kw k.name = true) (a : OpArg) :
    (∀ q, OpDenotes a q → k.allows q = true →
      BindRule.setOperator r a = { r with op := relConst q }) ∧
    (∀ q, OpDenotes a q → k.allows q = false → BindRule.setOperator r a = r) ∧
    ((∀ q, ¬ OpDenotes a q) → BindRule.setOperator r a = r) := by
  have hkw := bkw_match hk
  have main : ∀ q, OpDenotes a q → BindRule.setOperator r a =
      if k.allows q = true then { r with op := relConst q } else r := by
    intro q hq
    cases a with
    | cop c =>
      simp only [OpDenotes] at hq; subst hq
      simp only [BindRule.setOperator, keywordAllows, hkw, allows_bind, hr]
      have h0 := relConst_ne q
      by_cases he : relConst q = Eq'
      · have : q = .eq := relConst_inj (he.trans rfl)
        subst this
        cases k <;> simp [he, BKw.allows, Eq']
      · cases k.allows q <;> simp [he, h0]
    | str s =>
      have hc := matchCOP_denotes hq
      simp only [BindRule.setOperator, keywordAllows, hkw, hc, allows_bind, hr]
      have h0 := relConst_ne q
      by_cases he : relConst q = Eq'
      · have : q = .eq := relConst_inj (he.trans rfl)
        subst this
        cases k <;> simp [he, BKw.allows, Eq']
      · cases k.allows q <;> simp [he, h0]
    | int i => exact absurd hq (by simp [OpDenotes])
    | other => exact absurd hq (by simp [OpDenotes])
  refine ⟨fun q hq h => by rw [main q hq, if_pos h],
    fun q hq h => by rw [main q hq, if_neg (by simp [h])], fun h => ?_⟩
  cases a with
  | cop c =>
    have hna : allowsIn permittedBind (matchBKW r.kw) c = false := by
      cases hb : allowsIn permittedBind (matchBKW r.kw) c with
      | false => rfl
      | true => obtain ⟨q, hq⟩ := allowsIn_rel pb_rel hb; exact absurd hq.symm (h q)
    have hne : c ≠ Eq' := h .eq
    simp [BindRule.setOperator, keywordAllows, hna, hne]
  | str s =>
    have : matchCOP s = 0 := matchCOP_none h
    simp [BindRule.setOperator, this]
  | int i => simp [BindRule.setOperator]
  | other => simp [BindRule.setOperator]

/-- **C18** for target rules. -/
theorem C18_target_set_operator (r : RuleCore) (hr : r.init = true) (k : TKw)
    (hk : Str.eqFold r.kw k.name = true) (a : OpArg) :
    (∀ q, OpDenotes a q → k.allows q = true →
      TargetRule.setOperator r a = { r with op := relConst q }) ∧
    (∀ q, OpDenotes a q → k.allows q = false → TargetRule.setOperator r a = r) ∧
    ((∀ q, ¬ OpDenotes a q) → TargetRule.setOperator r a = r) := by
  have hkw := tkw_match hk
  have main : ∀ q, OpDenotes a q → TargetRule.setOperator r a =
      if k.allows q = true then { r with op := relConst q } else r := by
    intro q hq
    cases a with
    | cop c =>
      simp only [OpDenotes] at hq; subst hq
      simp only [TargetRule.setOperator, TargetRule.setOperator.go, keywordAllows, hkw,
        allows_target, hr]
      have h0 := relConst_ne q
      by_cases he : relConst q = Eq'
      · have : q = .eq := relConst_inj (he.trans rfl)
        subst this
        cases k <;> simp [he, TKw.allows, Eq']
      · cases k.allows q <;> simp [he, h0]
    | str s =>
      have hc := matchCOP_denotes hq
      simp only [TargetRule.setOperator, TargetRule.setOperator.go, keywordAllows, hkw, hc,
        allows_target, hr]
      have h0 := relConst_ne q
      by_cases he : relConst q = Eq'
      · have : q = .eq := relConst_inj (he.trans rfl)
        subst this
        cases k <;> simp [he, TKw.allows, Eq']
      · cases k.allows q <;> simp [he, h0]
    | int i => exact absurd hq (by simp [OpDenotes])
    | other => exact absurd hq (by simp [OpDenotes])
  refine ⟨fun q hq h => by rw [main q hq, if_pos h],
    fun q hq h => by rw [main q hq, if_neg (by simp [h])], fun h => ?_⟩
  cases a with
  | cop c =>
    have hna : allowsIn permittedTarget (matchTKW r.kw) c = false := by
      cases hb : allowsIn permittedTarget (matchTKW r.kw) c with
      | false => rfl
      | true => obtain ⟨q, hq⟩ := allowsIn_rel pt_rel hb; exact absurd hq.symm (h q)
    have hne : c ≠ Eq' := h .eq
    simp [TargetRule.setOperator, TargetRule.setOperator.go, keywordAllows, hna, hne]
  | str s =>
    have : matchCOP s = 0 := matchCOP_none h
    simp [TargetRule.setOperator, TargetRule.setOperator.go, this]
  | int i => simp [TargetRule.setOperator]
  | other => simp [TargetRule.setOperator]

/-- **C18.** `SetOperator` on an uninitialised rule does nothing. -/
theorem C18_uninitialised (r : RuleCore) (hr : r.init = false) (a : OpArg) :
    BindRule.setOperator r a = r ∧ TargetRule.setOperator r a = r := by
  constructor
  · simp only [BindRule.setOperator, hr]
    repeat' split
    all_goals first | rfl | simp_all
  · cases a <;> simp only [TargetRule.setOperator, TargetRule.setOperator.go, hr]
    all_goals (repeat' split)
    all_goals first | rfl | simp_all

example : BindRule.setOperator ⟨true, b!"SSF", 0⟩ (.str b!"greater than or equal") = ⟨true, b!"SSF", Ge'⟩ ∧
    BindRule.setOperator ⟨true, b!"userdn", Eq'⟩ (.cop Gt') = ⟨true, b!"userdn", Eq'⟩ ∧
    OpDenotes (.str b!"greater than or equal") .ge := by
  refine ⟨by decide, by decide, b!"Greater Than Or Equal", by decide, by decide⟩

/-- **C19.** Looking up an operator by text, in every iteration order of the map. -/
theorem C19_lookup (m : List Cop) (hm : m.Perm copMap) (s : Str) :
    (∀ q : Rel, matchCOPOn m s = relConst q ↔ ∃ t ∈ q.texts, Str.eqFold s t = true) ∧
      (matchCOPOn m s = 0 ↔ ∀ q : Rel, ∀ t ∈ q.texts, Str.eqFold s t = false) ∧
      ∀ q : Rel, (relConst q).toNat = q.number := by
  have hrel : ∀ c ∈ m, ∃ r, relConst r = c := fun c hc => copMap_rel c (hm.mem_iff.1 hc)
  have hof : ∀ q : Rel, (∃ t ∈ q.texts, Str.eqFold s t = true) → matchCOPOn m s = relConst q :=
    fun q h => matchCOPOn_eq hrel h (hm.mem_iff.2 (relConst_mem q))
  have hz : (∀ q : Rel, ∀ t ∈ q.texts, Str.eqFold s t = false) → matchCOPOn m s = 0 :=
    fun h => matchCOPOn_zero hrel h
  refine ⟨fun q => ⟨fun h => ?_, hof q⟩, ⟨fun h q t ht => ?_, hz⟩, fun q => by cases q <;> decide⟩
  · by_cases hx : ∃ r : Rel, ∃ t ∈ r.texts, Str.eqFold s t = true
    · obtain ⟨r, hr⟩ := hx
      have := hof r hr
      rw [h] at this
      rw [relConst_inj this]; exact hr
    · exfalso
      have := hz fun q t ht => by
        cases hb : Str.eqFold s t with
        | false => rfl
        | true => exact absurd ⟨q, t, ht, hb⟩ hx
      rw [h] at this
      exact relConst_ne q this
  · cases hb : Str.eqFold s t with
    | false => rfl
    | true =>
      have := hof q ⟨t, ht, hb⟩
      rw [h] at this
      exact absurd this.symm (relConst_ne q)

/-- **C19.** `Compare` accepts exactly the operator itself, its number and its texts. -/
theorem C19_compare (q : Rel) (a : OpArg) :
    Cop.compare (relConst q) a = true ↔
      OpDenotes a q ∨ a = .int q.number := by
  cases a with
  | cop c => simp [Cop.compare, OpDenotes]
  | int i =>
    have : (relConst q).toNat = q.number := by cases q <;> decide
    simp [Cop.compare, OpDenotes, this]
  | str s =>
    simp only [Cop.compare, OpDenotes, strInSliceFold_iff, ← relConst_texts]
    simp [or_comm, or_left_comm, or_assoc]
  | other => simp [Cop.compare, OpDenotes]

example : matchCOP b!"LESS than" = Lt' ∧ matchCOP b!"==" = 0 := by decide

/-- A map of builder methods as the package makes them: not nil, the keys are
operators, each once. -/
def MapOk {μ : Type} (m : List (Cop × μ)) : Prop :=
  (m.map (·.1)).Nodup ∧ ∀ e ∈ m, ∃ q, relConst q = e.1

private theorem mapGet_some {μ : Type} {m : List (Cop × μ)} {c : Cop} {f : μ}
    (h : mapGet m c = some f) : (c, f) ∈ m := by
  unfold mapGet at h
  cases hf : m.find? (fun e => e.1 == c) with
  | none => simp [hf] at h
  | some e =>
    have h1 := List.mem_of_find?_eq_some hf
    have h2 := List.find?_some hf
    simp [hf] at h; simp at h2
    subst h; subst h2; exact h1

private theorem mapGet_mem {μ : Type} {m : List (Cop × μ)} (hn : (m.map (·.1)).Nodup) {c : Cop} {f : μ}
    (h : (c, f) ∈ m) : mapGet m c = some f := by
  induction m with
  | nil => cases h
  | cons e t ih =>
    simp only [List.map_cons, List.nodup_cons] at hn
    rcases List.mem_cons.1 h with rfl | h
    · simp [mapGet]
    · have hne : e.1 ≠ c := fun he => hn.1 (he ▸ List.mem_map_of_mem (f := (·.1)) h)
      have := ih hn.2 h
      unfold mapGet at this ⊢
      rw [List.find?_cons_of_neg (by simpa using hne)]
      exact this

private theorem range_spec {μ : Type} {m : List (Cop × μ)} (hm : MapOk m) (s : Str) (q : Rel) (f : μ) :
    rangeFuncMap s m = (relConst q, some f) ↔
      (relConst q, f) ∈ m ∧ ∃ t ∈ q.texts, Str.eqFold s t = true := by
  induction m with
  | nil => simp [rangeFuncMap]
  | cons e t ih =>
    obtain ⟨k, v⟩ := e
    obtain ⟨p, hp⟩ := hm.2 (k, v) (by simp)
    simp only at hp; subst hp
    have hm' : MapOk t := ⟨by have := hm.1; simp at this; simpa using this.2,
      fun e he => hm.2 e (by simp [he])⟩
    simp only [rangeFuncMap, relConst_texts]
    by_cases h : strInSliceFold s p.texts = true
    · rw [if_pos h]
      have hp' := (strInSliceFold_iff _ _).1 h
      constructor
      · intro h2
        simp only [Prod.mk.injEq, Option.some.injEq] at h2
        obtain ⟨h3, rfl⟩ := h2
        have := relConst_inj h3; subst this
        exact ⟨by simp, hp'⟩
      · rintro ⟨h2, h3⟩
        have := text_unique hp' h3; subst this
        rcases List.mem_cons.1 h2 with h4 | h4
        · simp only [Prod.mk.injEq] at h4; rw [h4.2]
        · have := hm.1
          simp only [List.map_cons, List.nodup_cons] at this
          exact absurd (List.mem_map_of_mem (f := (·.1)) h4) this.1
    · rw [if_neg h, ih hm']
      constructor
      · rintro ⟨h2, h3⟩; exact ⟨by simp [h2], h3⟩
      · rintro ⟨h2, h3⟩
        rcases List.mem_cons.1 h2 with h4 | h4
        · simp only [Prod.mk.injEq] at h4
          have := relConst_inj h4.1; subst this
          exact absurd ((strInSliceFold_iff _ _).2 h3) h
        · exact ⟨h4, h3⟩

/-- An index argument denotes an operator: constant, number, or text. -/
def IdxDenotes (a : OpArg) (q : Rel) : Prop := OpDenotes a q ∨ a = .int q.number

private theorem number_valid (q : Rel) : isValidCopNumeral (q.number : Int) = true := by
  cases q <;> decide

private theorem valid_number {i : Int} (h : isValidCopNumeral i = true) :
    ∃ q : Rel, i = q.number := by
  simp only [isValidCopNumeral, Bool.and_eq_true, decide_eq_true_eq] at h
  have : i = 1 ∨ i = 2 ∨ i = 3 ∨ i = 4 ∨ i = 5 ∨ i = 6 := by omega
  rcases this with rfl | rfl | rfl | rfl | rfl | rfl
  · exact ⟨.eq, rfl⟩
  · exact ⟨.ne, rfl⟩
  · exact ⟨.lt, rfl⟩
  · exact ⟨.gt, rfl⟩
  · exact ⟨.le, rfl⟩
  · exact ⟨.ge, rfl⟩

private theorem number_inj {p q : Rel} (h : p.number = q.number) : p = q := by
  cases p <;> cases q <;> first | rfl | (exact absurd h (by decide))

private theorem cop_of_val {c : Cop} {q : Rel} (h : c.toNat = q.number) : c = relConst q := by
  apply UInt8.toNat_inj.1
  rw [h]; cases q <;> decide

private theorem cop_val (q : Rel) : (relConst q).toNat = q.number := by cases q <;> decide

/-- **C20** for target rule methods: `Index` finds method `f` of operator `q` exactly
when the argument denotes `q` and `f` was registered for `q`. -/
theorem C20_target_index {μ : Type} (m : List (Cop × μ)) (hm : MapOk m) (a : OpArg) (q : Rel)
    (f : μ) :
    TargetRuleMethods.index (some m) a = (relConst q, some f) ↔
      IdxDenotes a q ∧ (relConst q, f) ∈ m := by
  have byInt : ∀ i : Int, TargetRuleMethods.byInt m i = (relConst q, some f) ↔
      i = q.number ∧ (relConst q, f) ∈ m := by
    intro i
    unfold TargetRuleMethods.byInt
    by_cases hv : isValidCopNumeral i = true
    · obtain ⟨p, rfl⟩ := valid_number hv
      rw [if_neg (by simp [hv]), toU8_relConst]
      cases hg : mapGet m (relConst p) with
      | none =>
        constructor
        · intro h; simp at h
        · rintro ⟨h1, h2⟩
          have := number_inj (Int.ofNat_inj.1 h1); subst this
          rw [mapGet_mem hm.1 h2] at hg; cases hg
      | some g =>
        simp only [Prod.mk.injEq, Option.some.injEq]
        constructor
        · rintro ⟨h1, rfl⟩
          have := relConst_inj h1; subst this
          exact ⟨rfl, mapGet_some hg⟩
        · rintro ⟨h1, h2⟩
          have := number_inj (Int.ofNat_inj.1 h1); subst this
          rw [mapGet_mem hm.1 h2] at hg
          simpa using hg.symm
    · rw [if_pos (by simpa using hv)]
      constructor
      · intro h; simp at h
      · rintro ⟨h1, _⟩; rw [h1, number_valid] at hv; exact absurd rfl hv
  cases a with
  | cop c =>
    simp only [TargetRuleMethods.index, byInt, IdxDenotes, OpDenotes]
    constructor
    · rintro ⟨h1, h2⟩; exact ⟨Or.inl (cop_of_val (Int.ofNat_inj.1 h1)), h2⟩
    · rintro ⟨h1 | h1, h2⟩
      · rw [h1, cop_val]; exact ⟨rfl, h2⟩
      · cases h1
  | int i => simp [TargetRuleMethods.index, byInt, IdxDenotes, OpDenotes]
  | str s =>
    simp only [TargetRuleMethods.index, range_spec hm, IdxDenotes, OpDenotes]
    constructor
    · rintro ⟨h1, h2⟩; exact ⟨Or.inl h2, h1⟩
    · rintro ⟨h1 | h1, h2⟩
      · exact ⟨h2, h1⟩
      · cases h1
  | other => simp [TargetRuleMethods.index, IdxDenotes, OpDenotes]

theorem index_shape_t {μ : Type} (m : List (Cop × μ)) (hm : MapOk m) (a : OpArg) :
    TargetRuleMethods.index (some m) a = (badCop, none) ∨
      ∃ q f, TargetRuleMethods.index (some m) a = (relConst q, some f) := by
  have hrange : ∀ s, rangeFuncMap s m = (badCop, none) ∨
      ∃ q f, rangeFuncMap s m = (relConst q, some f) := by
    intro s
    have h2 := hm.2
    clear hm
    induction m with
    | nil => exact Or.inl rfl
    | cons e t ih =>
      obtain ⟨k, v⟩ := e
      unfold rangeFuncMap
      split
      · obtain ⟨q, hq⟩ := h2 (k, v) (by simp)
        exact Or.inr ⟨q, v, by rw [hq]⟩
      · exact ih fun e he => h2 e (by simp [he])
  have hget : ∀ i, TargetRuleMethods.byInt m i = (badCop, none) ∨
      ∃ q f, TargetRuleMethods.byInt m i = (relConst q, some f) := by
    intro i
    unfold TargetRuleMethods.byInt
    split
    · exact Or.inl rfl
    cases hg : mapGet m (toU8 i) with
    | none => exact Or.inl rfl
    | some f =>
      obtain ⟨q, hq⟩ := hm.2 _ (mapGet_some hg)
      exact Or.inr ⟨q, f, by rw [hq]⟩
  cases a with
  | cop c => exact hget _
  | int i => exact hget _
  | str s => exact hrange s
  | other => exact Or.inl rfl

/-- **C20** for target rule methods: `Contains` is true exactly when the argument
denotes an operator with a registered method. -/
theorem C20_target_contains {μ : Type} (m : List (Cop × μ)) (hm : MapOk m) (a : OpArg) :
    TargetRuleMethods.contains (some m) a = true ↔
      ∃ q f, IdxDenotes a q ∧ (relConst q, f) ∈ m := by
  unfold TargetRuleMethods.contains
  constructor
  · intro h
    rcases index_shape_t m hm a with h1 | ⟨q, f, h1⟩
    · rw [h1] at h; cases h
    · exact ⟨q, f, (C20_target_index m hm a q f).1 h1⟩
  · rintro ⟨q, f, h⟩
    rw [(C20_target_index m hm a q f).2 h]
    exact (valid_cop_iff _).2 ⟨q, rfl⟩

theorem bind_index_shape {μ : Type} (m : List (Cop × μ)) (hm : MapOk m) (a : OpArg) :
    BindRuleMethods.index (some m) a = (badCop, none) ∨
      ∃ q f, BindRuleMethods.index (some m) a = (relConst q, some f) := by
  have hrange : ∀ s, rangeFuncMap s m = (badCop, none) ∨
      ∃ q f, rangeFuncMap s m = (relConst q, some f) := by
    intro s
    have h2 := hm.2
    clear hm
    induction m with
    | nil => exact Or.inl rfl
    | cons e t ih =>
      obtain ⟨k, v⟩ := e
      unfold rangeFuncMap
      split
      · obtain ⟨q, hq⟩ := h2 (k, v) (by simp)
        exact Or.inr ⟨q, v, by rw [hq]⟩
      · exact ih fun e he => h2 e (by simp [he])
  have hget : ∀ i, BindRuleMethods.byInt m i = (badCop, none) ∨
      ∃ q f, BindRuleMethods.byInt m i = (relConst q, some f) := by
    intro i
    unfold BindRuleMethods.byInt
    cases hg : mapGet m (toU8 i) with
    | none => exact Or.inl rfl
    | some f =>
      obtain ⟨q, hq⟩ := hm.2 _ (mapGet_some hg)
      exact Or.inr ⟨q, f, by rw [hq]⟩
  cases a with
  | cop c => exact hget _
  | int i => exact hget _
  | str s => exact hrange s
  | other => exact Or.inl rfl

/-- **C20** does not hold for bind rule methods: the number 257 finds the method of
`Eq` (the conversion to `uint8` drops the high bits and there is no range check). -/
theorem C20_bind_counterexample :
    ∃ (m : List (Cop × Unit)) (i : Int), MapOk m ∧ (∀ q : Rel, i ≠ q.number) ∧
      BindRuleMethods.index (some m) (.int i) = (Eq', some ()) ∧
      BindRuleMethods.contains (some m) (.int i) = true := by
  refine ⟨[(Eq', ())], 257, ⟨by decide, ?_⟩, by intro q; cases q <;> decide, by decide, by decide⟩
  intro e he
  simp at he; subst he
  exact ⟨.eq, rfl⟩

/-- An index argument denotes an operator, numbers taken modulo 256. -/
def IdxDenotesMod (a : OpArg) (q : Rel) : Prop :=
  OpDenotes a q ∨ ∃ i : Int, a = .int i ∧ i % 256 = q.number

/-- **C20**, what holds for bind rule methods: as for target rules, with numbers
taken modulo 256.  (Missing from the full claim: numbers outside 0..255.) -/
theorem C20_bind_index_partial {μ : Type} (m : List (Cop × μ)) (hm : MapOk m) (a : OpArg) (q : Rel)
    (f : μ) :
    BindRuleMethods.index (some m) a = (relConst q, some f) ↔
      IdxDenotesMod a q ∧ (relConst q, f) ∈ m := by
  have byInt : ∀ i : Int, BindRuleMethods.byInt m i = (relConst q, some f) ↔
      i % 256 = q.number ∧ (relConst q, f) ∈ m := by
    intro i
    unfold BindRuleMethods.byInt
    rw [← toU8_eq_iff]
    cases hg : mapGet m (toU8 i) with
    | none =>
      constructor
      · intro h; simp at h
      · rintro ⟨h1, h2⟩
        rw [← h1] at h2
        rw [mapGet_mem hm.1 h2] at hg; cases hg
    | some g =>
      simp only [Prod.mk.injEq, Option.some.injEq]
      constructor
      · rintro ⟨h1, rfl⟩; exact ⟨h1, h1 ▸ mapGet_some hg⟩
      · rintro ⟨h1, h2⟩
        rw [← h1] at h2
        rw [mapGet_mem hm.1 h2] at hg
        exact ⟨h1, by simpa using hg.symm⟩
  cases a with
  | cop c =>
    simp only [BindRuleMethods.index, byInt, IdxDenotesMod, OpDenotes]
    have hlt := UInt8.toNat_lt c
    constructor
    · rintro ⟨h1, h2⟩
      refine ⟨Or.inl (cop_of_val ?_), h2⟩
      have : (2 : Nat) ^ 8 = 256 := by decide
      omega
    · rintro ⟨h1 | ⟨i, h1, _⟩, h2⟩
      · rw [h1, cop_val]
        refine ⟨?_, h2⟩
        cases q <;> decide
      · cases h1
  | int i =>
    simp only [BindRuleMethods.index, byInt, IdxDenotesMod, OpDenotes, OpArg.int.injEq]
    constructor
    · rintro ⟨h1, h2⟩; exact ⟨Or.inr ⟨i, rfl, h1⟩, h2⟩
    · rintro ⟨h1 | ⟨j, rfl, h1⟩, h2⟩
      · cases h1
      · exact ⟨h1, h2⟩
  | str s =>
    simp only [BindRuleMethods.index, range_spec hm, IdxDenotesMod, OpDenotes]
    constructor
    · rintro ⟨h1, h2⟩; exact ⟨Or.inl h2, h1⟩
    · rintro ⟨h1 | ⟨i, h1, _⟩, h2⟩
      · exact ⟨h2, h1⟩
      · cases h1
  | other =>
    simp only [BindRuleMethods.index, IdxDenotesMod, OpDenotes]
    constructor
    · intro h; simp at h
    · rintro ⟨h1 | ⟨i, h1, _⟩, h2⟩ <;> cases h1

/-- **C20.** An unset method map finds nothing. -/
theorem C20_zero {μ : Type} (a : OpArg) :
    BindRuleMethods.contains (none : MethodMap μ) a = false ∧
      TargetRuleMethods.contains (none : MethodMap μ) a = false := by
  exact ⟨rfl, rfl⟩

example : MapOk [(Eq', 1), (Ne', 2)] ∧
    TargetRuleMethods.index (some [(Eq', 1), (Ne', 2)]) (.str b!"not equal to") = (Ne', some 2) := by
  refine ⟨⟨by decide, ?_⟩, by decide⟩
  intro e he
  simp at he
  rcases he with rfl | rfl
  · exact ⟨.eq, rfl⟩
  · exact ⟨.ne, rfl⟩

/-- **C18** for rules without a known keyword: `Eq` is the only operator they take. -/
theorem C18_unknown_keyword (r : RuleCore) (hr : r.init = true) (a : OpArg) :
    ((∀ k : BKw, Str.eqFold r.kw k.name = false) →
      (OpDenotes a .eq → BindRule.setOperator r a = { r with op := relConst .eq }) ∧
      (¬ OpDenotes a .eq → BindRule.setOperator r a = r)) ∧
    ((∀ k : TKw, Str.eqFold r.kw k.name = false) →
      (OpDenotes a .eq → TargetRule.setOperator r a = { r with op := relConst .eq }) ∧
      (¬ OpDenotes a .eq → TargetRule.setOperator r a = r)) := by
  have hne : Eq' ≠ (0 : Cop) := by decide
  have hq : ∀ s, matchCOP s = Eq' ↔ ∃ t ∈ Rel.texts .eq, Str.eqFold s t = true :=
    fun s => (C19_lookup copMap (List.Perm.refl _) s).1 .eq
  constructor
  · intro hk
    have hm : matchBKW r.kw = 0 := (C17_bind_keywords bkwMap (List.Perm.refl _) r.kw).2.1.2 hk
    have hf : ∀ c, allowsIn permittedBind 0 c = false := fun c => rfl
    cases a with
    | cop c =>
      simp only [OpDenotes, BindRule.setOperator, keywordAllows, hm, hf, hr]
      refine ⟨fun h => ?_, fun h => ?_⟩
      · subst h; simp [relConst, hne]
      · have h' : c ≠ Eq' := h
        simp [h']
    | str s =>
      simp only [OpDenotes, BindRule.setOperator, keywordAllows, hm, hf, hr]
      refine ⟨fun h => ?_, fun h => ?_⟩
      · simp [(hq s).2 h, hne, relConst]
      · have h' : matchCOP s ≠ Eq' := fun h' => h ((hq s).1 h')
        simp [h']
    | int i => exact ⟨fun h => h.elim, fun _ => by simp [BindRule.setOperator]⟩
    | other => exact ⟨fun h => h.elim, fun _ => by simp [BindRule.setOperator]⟩
  · intro hk
    have hm : matchTKW r.kw = 0 := (C17_target_keywords tkwMap (List.Perm.refl _) r.kw).2.1.2 hk
    have hf : ∀ c, allowsIn permittedTarget 0 c = false := fun c => rfl
    cases a with
    | cop c =>
      simp only [OpDenotes, TargetRule.setOperator, TargetRule.setOperator.go, keywordAllows, hm, hf, hr]
      refine ⟨fun h => ?_, fun h => ?_⟩
      · subst h; simp [relConst, hne]
      · have h' : c ≠ Eq' := h
        simp [h']
    | str s =>
      simp only [OpDenotes, TargetRule.setOperator, TargetRule.setOperator.go, keywordAllows, hm, hf, hr]
      refine ⟨fun h => ?_, fun h => ?_⟩
      · simp [(hq s).2 h, hne, relConst]
      · have h' : matchCOP s ≠ Eq' := fun h' => h ((hq s).1 h')
        simp [h']
    | int i => exact ⟨fun h => h.elim, fun _ => by simp [TargetRule.setOperator]⟩
    | other => exact ⟨fun h => h.elim, fun _ => by simp [TargetRule.setOperator]⟩

example : (∀ k : BKw, Str.eqFold b!"blarg" k.name = false) ∧
    BindRule.setOperator ⟨true, b!"blarg", 0⟩ (.str b!"equal to") = ⟨true, b!"blarg", Eq'⟩ ∧
    BindRule.setOperator ⟨true, b!"blarg", 0⟩ (.cop Ne') = ⟨true, b!"blarg", 0⟩ := by
  refine ⟨fun k => ?_, by decide, by decide⟩
  cases k <;> decide

/-- A setter call on a bind rule. -/
inductive Setter where
  | keyword (k : KwArg)
  | operator (a : OpArg)

def Setter.runBind (r : RuleCore) : Setter → RuleCore
  | .keyword k => BindRule.setKeyword r k
  | .operator a => BindRule.setOperator r a

/-- The rule has no operator, or its keyword allows it. -/
def BindOpOk (r : RuleCore) : Prop :=
  r.op = 0 ∨ ∃ k q, Str.eqFold r.kw (BKw.name k) = true ∧ r.op = relConst q ∧ k.allows q = true

/-- **C57** fails: changing the keyword after the operator leaves an operator that
the new keyword does not allow (`userdn >`). -/
theorem C57_counterexample :
    let r := [Setter.keyword (.bind BindSSF), .operator (.cop Gt'), .keyword (.bind BindUDN)].foldl
      Setter.runBind ⟨true, [], 0⟩
    r = ⟨true, b!"userdn", Gt'⟩ ∧ ¬ BindOpOk r := by
  have h : [Setter.keyword (.bind BindSSF), .operator (.cop Gt'), .keyword (.bind BindUDN)].foldl
      Setter.runBind ⟨true, [], 0⟩ = ⟨true, b!"userdn", Gt'⟩ := by decide
  simp only [h]
  refine ⟨trivial, ?_⟩
  rintro (h1 | ⟨k, q, h1, h2, h3⟩)
  · exact absurd h1 (by decide)
  · simp only at h1 h2
    cases q <;> first | exact absurd h2 (by decide) | skip
    cases k <;> first | exact absurd h1 (by decide) | exact absurd h3 (by decide)

/-- **C57**, what holds: as long as the keyword is not changed, a rule of a defined
keyword only ever gets operators its keyword allows.  (Missing: later keyword
changes.) -/
theorem C57_fixed_keyword_partial (r : RuleCore) (k : BKw) (hk : Str.eqFold r.kw k.name = true)
    (hr : BindOpOk r) (ops : List OpArg) :
    BindOpOk ((ops.map Setter.operator).foldl Setter.runBind r) := by
  induction ops generalizing r with
  | nil => exact hr
  | cons a t ih =>
    simp only [List.map_cons, List.foldl_cons]
    have key : Setter.runBind r (.operator a) = r ∨ ∃ q, k.allows q = true ∧
        Setter.runBind r (.operator a) = { r with op := relConst q } := by
      simp only [Setter.runBind]
      by_cases hi : r.init = true
      case neg => exact Or.inl (C18_uninitialised r (by simpa using hi) a).1
      case pos =>
        obtain ⟨h1, h2, h3⟩ := C18_bind_set_operator r hi k hk a
        by_cases hx : ∃ q, OpDenotes a q
        · obtain ⟨q, hq⟩ := hx
          cases ha : k.allows q with
          | true => exact Or.inr ⟨q, ha, h1 q hq ha⟩
          | false => exact Or.inl (h2 q hq ha)
        · exact Or.inl (h3 fun q hq => hx ⟨q, hq⟩)
    rcases key with h | ⟨q, hq, h⟩
    · rw [h]; exact ih r hk hr
    · rw [h]
      exact ih _ hk (Or.inr ⟨k, q, hk, rfl, hq⟩)

private theorem operator_step (r : RuleCore) (a : OpArg) :
    BindRule.setOperator r a = r ∨ ∃ q, OpDenotes a q ∧
      BindRule.setOperator r a = { r with op := relConst q } ∧
      (q = .eq ∨ ∃ k : BKw, Str.eqFold r.kw k.name = true ∧ k.allows q = true) := by
  by_cases hi : r.init = true
  case neg => exact Or.inl (C18_uninitialised r (by simpa using hi) a).1
  by_cases hk : ∃ k : BKw, Str.eqFold r.kw k.name = true
  · obtain ⟨k, hk⟩ := hk
    obtain ⟨h1, h2, h3⟩ := C18_bind_set_operator r hi k hk a
    by_cases hx : ∃ q, OpDenotes a q
    · obtain ⟨q, hq⟩ := hx
      cases ha : k.allows q with
      | true => exact Or.inr ⟨q, hq, h1 q hq ha, Or.inr ⟨k, hk, ha⟩⟩
      | false => exact Or.inl (h2 q hq ha)
    · exact Or.inl (h3 fun q hq => hx ⟨q, hq⟩)
  · obtain ⟨h1, h2⟩ := (C18_unknown_keyword r hi a).1 fun k => by
      cases h : Str.eqFold r.kw k.name with
      | false => rfl
      | true => exact absurd ⟨k, h⟩ hk
    by_cases he : OpDenotes a .eq
    · exact Or.inr ⟨.eq, he, h1 he, Or.inl rfl⟩
    · exact Or.inl (h2 he)

/-- **C57**, what holds of every history: the operator of a rule is the one it had before, or it was
given in some call at which the rule had a keyword that allows it, or it is `Eq`, which every keyword
allows; from that call on the rule had this operator.  (Missing: later keyword changes.) -/
theorem C57_history_partial (r : RuleCore) (h : List Setter) :
    (h.foldl Setter.runBind r).op = r.op ∨
    ∃ h₁ a h₂ q, h = h₁ ++ .operator a :: h₂ ∧ OpDenotes a q ∧
      (q = .eq ∨ ∃ k : BKw, Str.eqFold (h₁.foldl Setter.runBind r).kw k.name = true ∧ k.allows q = true) ∧
      (h.foldl Setter.runBind r).op = relConst q ∧
      ((h₁ ++ [.operator a]).foldl Setter.runBind r).op = relConst q := by
  induction h generalizing r with
  | nil => exact Or.inl rfl
  | cons s t ih =>
    rw [List.foldl_cons]
    rcases ih (Setter.runBind r s) with e | ⟨h₁, a, h₂, q, rfl, h1, h2, h3, h4⟩
    · cases s with
      | keyword k =>
        refine Or.inl (e.trans ?_)
        simp only [Setter.runBind, BindRule.setKeyword]
        split <;> (try split) <;> rfl
      | operator a =>
        rcases operator_step r a with h | ⟨q, hq, h, hk⟩
        · left
          rw [e]
          exact congrArg RuleCore.op h
        · right
          have : (Setter.runBind r (.operator a)).op = relConst q := congrArg RuleCore.op h
          exact ⟨[], a, t, q, rfl, hq, hk, e.trans this, this⟩
    · exact Or.inr ⟨s :: h₁, a, h₂, q, rfl, h1, h2, h3, h4⟩

example : ([Setter.keyword (.bind BindSSF), .operator (.cop Gt'), .keyword (.bind BindUDN), .operator (.cop Lt')].foldl
    Setter.runBind ⟨true, [], 0⟩).op = Gt' := by decide

/-- **C57** for target rules: `Valid` accepts only rules with an operator their
keyword allows, whatever the history. -/
theorem C57_target_valid (r : RuleCore) (ok : Bool) (k : TKw) (hk : r.kw = k.name)
    (h : TargetRule.valid r ok = true) : ∃ q, r.op = relConst q ∧ k.allows q = true := by
  unfold TargetRule.valid at h
  split at h
  · cases h
  split at h
  · cases h
  rename_i _ h2
  simp only [Bool.not_eq_false] at h2
  have hm : matchTKW r.kw = tkwConst k := by rw [hk]; cases k <;> decide
  have hb : matchBKW r.kw = 0 := by rw [hk]; cases k <;> decide
  have hne : tkwConst k ≠ 0 := by cases k <;> decide
  simp only [keywordAllows, hm, hb] at h2
  simp only [ne_eq, not_true_eq_false, if_false, hne, not_false_eq_true, if_true] at h2
  obtain ⟨q, hq⟩ := allowsIn_rel pt_rel h2
  refine ⟨q, hq.symm, ?_⟩
  rw [← hq, allows_target] at h2
  exact h2

example : TargetRule.valid ⟨true, b!"targetscope", Eq'⟩ true = true ∧
    TargetRule.valid ⟨true, b!"targetscope", Ne'⟩ true = false := by decide

end Verif
