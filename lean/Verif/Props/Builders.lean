import Verif.Spec.Builders

/-!
# C71 to C74: methods that make rules, and their tables
-/

namespace Verif.Builders
open Verif Verif.Spec Verif.Attr Verif.DN Verif.Filter Verif.Bind Verif.Rules

theorem mem_eqNe {ρ : Type} (f : Cop → ρ) (q : Rel) (r : ρ) :
    (relConst q, r) ∈ eqNe f ↔ (q = .eq ∨ q = .ne) ∧ r = f (relConst q) := by
  cases q <;> simp [eqNe, relConst, Eq', Ne', Lt', Gt', Le', Ge']

theorem mem_allSix {ρ : Type} (f : Cop → ρ) (q : Rel) (r : ρ) :
    (relConst q, r) ∈ allSix f ↔ r = f (relConst q) := by
  cases q <;> simp [allSix, relConst, Eq', Ne', Lt', Gt', Le', Ge']

/-- A rule made in one step from a known bind keyword and an operator it allows. -/
theorem br_known (k : BKw) (q : Rel) (h : k.allows q = true) (ex : BExpr) :
    (BR (.bind (bkwConst k)) (.cop (relConst q)) ex).core = ⟨true, k.name, relConst q⟩ := by
  cases k <;> cases q <;> first | (exact absurd h (by decide)) | (simp only [BR]; decide +kernel)

theorem tr_known (k : TKw) (q : Rel) (h : k.allows q = true) (ex : TExpr) :
    (TR (.target (tkwConst k)) (.cop (relConst q)) ex).core = ⟨true, k.name, relConst q⟩ :=
  ((C62_target (.target (tkwConst k)) k rfl (.cop (relConst q)) ex).1 q rfl h).1

/-- A complete rule: the operator `q`, the keyword `k`, the value `ex`, accepted by
`Valid`. -/
def BMade (r : BRule) (k : BKw) (q : Rel) (ex : BExpr) : Prop :=
  r.valid = true ∧ r.core = ⟨true, k.name, relConst q⟩ ∧ r.ex = ex

def TMade (r : TRule) (k : TKw) (q : Rel) (ex : TExpr) : Prop :=
  r.valid = true ∧ r.core = ⟨true, k.name, relConst q⟩ ∧ r.ex = ex

theorem br_made (k : BKw) (q : Rel) (h : k.allows q = true) (ex : BExpr) (he : ex.isNil = false) :
    BMade (BR (.bind (bkwConst k)) (.cop (relConst q)) ex) k q ex := by
  have hc := br_known k q h ex
  refine ⟨?_, hc, rfl⟩
  have hn : k.name ≠ [] := by cases k <;> decide
  have hx : (BR (.bind (bkwConst k)) (.cop (relConst q)) ex).ex = ex := rfl
  simp [BRule.valid, BRule.isZero, BRule.condOk, hc, hx, hn, relConst_ne q, he]

theorem tr_made (k : TKw) (q : Rel) (h : k.allows q = true) (ex : TExpr) (he : ex.isNil = false) :
    TMade (TR (.target (tkwConst k)) (.cop (relConst q)) ex) k q ex :=
  ⟨(C62_target_valid _ _ _).2 ⟨(isNil_iff ex).1 he, k, q, rfl, rfl, h⟩, tr_known k q h ex, rfl⟩

theorem bkw_eqNe (k : BKw) (h : k ≠ .timeofday) (h' : k ≠ .ssf) (q : Rel) :
    k.allows q = true ↔ q = .eq ∨ q = .ne := by
  cases k <;> cases q <;> simp_all [BKw.allows]

theorem dnKw_eqNe {k : BKw} (h : dnKw k) (q : Rel) : k.allows q = true ↔ q = .eq ∨ q = .ne := by
  rcases h with rfl | rfl | rfl <;> cases q <;> simp [BKw.allows]

theorem pairKw_eqNe {k : BKw} (h : pairKw k) (q : Rel) : k.allows q = true ↔ q = .eq ∨ q = .ne := by
  rcases h with rfl | rfl <;> cases q <;> simp [BKw.allows]

theorem uriSpeaks_eqNe {u : Uri.Uri} {k : BKw} (h : uriSpeaks u k) (q : Rel) :
    k.allows q = true ↔ q = .eq ∨ q = .ne := by
  unfold uriSpeaks at h
  by_cases hz : u.avbt.isZero = false
  · rw [if_pos hz] at h; subst h; cases q <;> simp [BKw.allows]
  · rw [if_neg hz] at h
    obtain ⟨d, _, _, hk⟩ := h
    exact dnKw_eqNe hk q

/-! ## C71 -/

/-- The operators of a table. -/
def Lists {ρ : Type} (m : List (Cop × ρ)) (q : Rel) : Prop := ∃ r, (relConst q, r) ∈ m

theorem mapOk_eqNe {ρ : Type} (f : Cop → ρ) : MapOk (eqNe f) := by
  refine ⟨by simp [eqNe, Eq', Ne'], ?_⟩
  intro e he
  simp [eqNe] at he
  rcases he with rfl | rfl
  · exact ⟨.eq, rfl⟩
  · exact ⟨.ne, rfl⟩

theorem mapOk_allSix {ρ : Type} (f : Cop → ρ) : MapOk (allSix f) := by
  refine ⟨by simp [allSix, Eq', Ne', Lt', Gt', Le', Ge'], ?_⟩
  intro e he
  simp [allSix] at he
  rcases he with rfl | rfl | rfl | rfl | rfl | rfl
  · exact ⟨.eq, rfl⟩
  · exact ⟨.ne, rfl⟩
  · exact ⟨.lt, rfl⟩
  · exact ⟨.le, rfl⟩
  · exact ⟨.gt, rfl⟩
  · exact ⟨.ge, rfl⟩

/-- **C71**, bind rules: the table of every value has distinct operators, namely exactly
those that ACIv3 allows with the keyword of the value. -/
theorem C71_bind (S : Shifty 8) (v : BVal) (k : BKw) (h : v.Speaks k) :
    ∃ m, brm S v = some m ∧ MapOk m ∧ ∀ q, Lists m q ↔ k.allows q = true := by
  have two : ∀ (f : Cop → BRule), (∀ q, k.allows q = true ↔ q = .eq ∨ q = .ne) →
      MapOk (eqNe f) ∧ ∀ q, Lists (eqNe f) q ↔ k.allows q = true := by
    intro f hk
    refine ⟨mapOk_eqNe f, fun q => ?_⟩
    simp [Lists, mem_eqNe, hk]
  have six : ∀ (f : Cop → BRule), (∀ q, k.allows q = true) →
      MapOk (allSix f) ∧ ∀ q, Lists (allSix f) q ↔ k.allows q = true := by
    intro f hk
    refine ⟨mapOk_allSix f, fun q => ?_⟩
    simp [Lists, mem_allSix, hk]
  cases v with
  | dn d => obtain ⟨_, _, _, hk⟩ := h; exact ⟨_, rfl, two _ (dnKw_eqNe hk)⟩
  | dns d => obtain ⟨_, _, _, hk⟩ := h; exact ⟨_, rfl, two _ (dnKw_eqNe hk)⟩
  | uri u => obtain ⟨_, _, hk⟩ := h; exact ⟨_, rfl, two _ (uriSpeaks_eqNe hk)⟩
  | inh i => obtain ⟨_, _, _, hk⟩ := h; exact ⟨_, rfl, two _ (pairKw_eqNe hk)⟩
  | pair a => exact ⟨_, rfl, two _ (pairKw_eqNe h.2)⟩
  | ip a => cases h; exact ⟨_, rfl, two _ (bkw_eqNe _ (by decide) (by decide))⟩
  | fqdn f => cases h; exact ⟨_, rfl, two _ (bkw_eqNe _ (by decide) (by decide))⟩
  | dow d => cases h; exact ⟨_, rfl, two _ (bkw_eqNe _ (by decide) (by decide))⟩
  | tod t => cases h; exact ⟨_, rfl, six _ (fun q => by cases q <;> rfl)⟩
  | am a => cases h; exact ⟨_, rfl, two _ (bkw_eqNe _ (by decide) (by decide))⟩
  | ssf s => cases h; exact ⟨_, rfl, six _ (fun q => by cases q <;> rfl)⟩

example : (BVal.dn (GDN b!"cn=x")).Speaks .groupdn :=
  ⟨_, rfl, rfl, Or.inr (Or.inr rfl)⟩

/-- **C71**, target rules: the full claim. -/
def TargetTables : Prop :=
  ∀ (v : TVal) (k : TKw), v.Speaks k → ∃ m, trm v = some m ∧ ∀ q, Lists m q ↔ k.allows q = true

/-- **C71** fails for filter operations: their tables list `Ne`, which does not go with
`targattrfilters` and which the documentation of `Ne` calls useless. -/
theorem C71_counterexample : ¬ TargetTables := by
  intro h
  obtain ⟨m, hm, hq⟩ := h (.afos (some ⟨44, []⟩)) .targattrfilters rfl
  cases hm
  have := (hq .ne).1 ⟨badTargetRule, by simp [relConst]⟩
  cases this

theorem tdnKw_eqNe {k : TKw} (h : tdnKw k) (q : Rel) : k.allows q = true ↔ q = .eq ∨ q = .ne := by
  rcases h with rfl | rfl | rfl <;> cases q <;> simp [TKw.allows]

theorem oidKw_eqNe {k : TKw} (h : oidKw k) (q : Rel) : k.allows q = true ↔ q = .eq ∨ q = .ne := by
  rcases h with rfl | rfl <;> cases q <;> simp [TKw.allows]

/-- **C71**, target rules: the operators of every table are distinct and include those
the keyword allows; apart from filter operations there are no others.  Missing: the tables
of filter operations list `Ne` as well. -/
theorem C71_target_partial (v : TVal) (k : TKw) (h : v.Speaks k) :
    ∃ m, trm v = some m ∧ MapOk m ∧ (∀ q, k.allows q = true → Lists m q) ∧
      (v.isOp = false → ∀ q, Lists m q → k.allows q = true) ∧
      (v.isOp = true → ∀ q, Lists m q ↔ q = .eq ∨ q = .ne) := by
  have two : ∀ (f : Cop → TRule), (∀ q, k.allows q = true ↔ q = .eq ∨ q = .ne) →
      MapOk (eqNe f) ∧ ∀ q, Lists (eqNe f) q ↔ k.allows q = true := by
    intro f hk
    refine ⟨mapOk_eqNe f, fun q => ?_⟩
    simp [Lists, mem_eqNe, hk]
  have close : ∀ m, trm v = some m → v.isOp = false →
      (MapOk m ∧ ∀ q, Lists m q ↔ k.allows q = true) → _ := fun m hm ho hx =>
    (⟨m, hm, hx.1, fun q => (hx.2 q).2, fun _ q => (hx.2 q).1, fun hc => absurd (ho.symm.trans hc) (by decide)⟩ :
      ∃ m, trm v = some m ∧ MapOk m ∧ (∀ q, k.allows q = true → Lists m q) ∧
      (v.isOp = false → ∀ q, Lists m q → k.allows q = true) ∧
      (v.isOp = true → ∀ q, Lists m q ↔ q = .eq ∨ q = .ne))
  have ops : ∀ (a b : TRule), MapOk [(Eq', a), (Ne', b)] ∧
      ∀ q, Lists [(Eq', a), (Ne', b)] q ↔ q = .eq ∨ q = .ne := by
    intro a b
    have he : [(Eq', a), (Ne', b)] = eqNe fun c => if c = Eq' then a else b := by
      simp [eqNe, Eq', Ne']
    rw [he]
    exact ⟨mapOk_eqNe _, fun q => by simp [Lists, mem_eqNe]⟩
  have isop : ∀ a b : TRule, trm v = some [(Eq', a), (Ne', b)] → v.isOp = true → k = .targattrfilters →
      ∃ m, trm v = some m ∧ MapOk m ∧ (∀ q, k.allows q = true → Lists m q) ∧
      (v.isOp = false → ∀ q, Lists m q → k.allows q = true) ∧
      (v.isOp = true → ∀ q, Lists m q ↔ q = .eq ∨ q = .ne) := by
    intro a b hm ho hk
    refine ⟨_, hm, (ops a b).1, fun q hq => ?_, (fun hc => absurd (ho.symm.trans hc) (by decide)),
      fun _ => (ops a b).2⟩
    subst hk
    exact ((ops a b).2 q).2 (by cases q <;> first | exact Or.inl rfl | cases hq)
  cases v with
  | scope s =>
    cases h
    refine close _ rfl rfl ⟨⟨by simp, ?_⟩, fun q => ?_⟩
    · intro e he
      simp at he; subst he
      exact ⟨.eq, rfl⟩
    · cases q <;> simp [Lists, relConst, TKw.allows, Eq', Ne', Lt', Gt', Le', Ge']
  | filter f => cases h; exact close _ rfl rfl (two _ fun q => by cases q <;> simp [TKw.allows])
  | at_ a => cases h; exact close _ rfl rfl (two _ fun q => by cases q <;> simp [TKw.allows])
  | ats a =>
    obtain ⟨ha, rfl⟩ := h
    cases a with
    | none => cases ha
    | some a => exact close _ rfl rfl (two _ fun q => by cases q <;> simp [TKw.allows])
  | uriAts a => cases h
  | oid o => obtain ⟨_, _, _, hk⟩ := h; exact close _ rfl rfl (two _ (oidKw_eqNe hk))
  | oids o =>
    obtain ⟨_, _, _, hk⟩ := h
    refine close _ rfl rfl ⟨(ops _ _).1, fun q => ?_⟩
    rw [oidKw_eqNe hk q]
    exact (ops _ _).2 q
  | dn d => obtain ⟨_, _, _, hk⟩ := h; exact close _ rfl rfl (two _ (tdnKw_eqNe hk))
  | dns d => obtain ⟨_, _, _, hk⟩ := h; exact close _ rfl rfl (two _ (tdnKw_eqNe hk))
  | afo a => exact isop _ _ rfl rfl h
  | afos a => exact isop _ _ rfl rfl h

example : (TVal.dn (TFDN b!"cn=x")).Speaks .target_from := ⟨_, rfl, rfl, Or.inr (Or.inr rfl)⟩

/-! ## C72 -/

/-- **C72**, bind rules: the full claim. -/
def BindMethods : Prop :=
  ∀ (S : Shifty 8) (v : BVal) (k : BKw) (m : List (Cop × BRule)), v.Speaks k → v.Filled S →
    brm S v = some m → ∀ q r, (relConst q, r) ∈ m → BMade r k q v.expr

/-- The keyword `makeBindRule` uses is the documented one. -/
def uriFits : BVal → Prop
  | .uri (some u) =>
    if u.avbt.isZero = false then u.avbt.kw = BindUAT
    else ∃ d, u.dn = some d ∧ (d.kw = BindUDN ∨ d.kw = BindGDN)
  | _ => True

/-- **C72** fails for URIs: one with a name made by `RDN` makes a `userdn` rule. -/
theorem C72_bind_counterexample : ¬ BindMethods := by
  intro h
  have hm := h (.anyRef 8) (.uri (some { Uri.newURI with dn := RDN b!"cn=x" })) .roledn _
    ⟨_, rfl, by
      unfold uriSpeaks
      rw [if_neg (by decide)]
      exact ⟨_, rfl, rfl, Or.inr (Or.inl rfl)⟩⟩
    ⟨_, _, _, rfl, rfl, rfl⟩ rfl .eq _ ((mem_eqNe _ _ _).2 ⟨Or.inl rfl, rfl⟩)
  have := congrArg RuleCore.kw hm.2.1
  revert this
  simp only [uriCond]
  decide +kernel

theorem bad_invalid : badBindRule.valid = false := rfl

theorem badT_invalid : badTargetRule.valid = false := rfl

theorem eqNe_rule {k : BKw} {f : Cop → BRule} {ex : BExpr} (ha : ∀ q, k.allows q = true ↔ q = .eq ∨ q = .ne)
    (he : ex.isNil = false) (hf : ∀ op, f op = BR (.bind (bkwConst k)) (.cop op) ex) {q : Rel} {r : BRule}
    (h : (relConst q, r) ∈ eqNe f) : BMade r k q ex := by
  obtain ⟨hq, rfl⟩ := (mem_eqNe f q r).1 h
  rw [hf]
  exact br_made k q ((ha q).2 hq) ex he

theorem six_rule {k : BKw} {f : Cop → BRule} {ex : BExpr} (ha : ∀ q, k.allows q = true)
    (he : ex.isNil = false) (hf : ∀ op, f op = BR (.bind (bkwConst k)) (.cop op) ex) {q : Rel} {r : BRule}
    (h : (relConst q, r) ∈ allSix f) : BMade r k q ex := by
  rw [(mem_allSix f q r).1 h, hf]
  exact br_made k q (ha q) ex he

theorem uri_ruleKeyword {u : Uri.Uri} {k : BKw} (h : uriSpeaks u k) (hf : uriFits (.uri (some u))) :
    u.ruleKeyword = bkwConst k := by
  unfold uriSpeaks at h
  simp only [uriFits] at hf
  by_cases hz : u.avbt.isZero = false
  · rw [if_pos hz] at h hf
    subst h
    simp [Uri.Uri.ruleKeyword, hz, hf, bkwConst]
  · rw [if_neg hz] at h hf
    obtain ⟨d, hd, hk, hk'⟩ := h
    obtain ⟨d', hd', hu⟩ := hf
    rw [hd] at hd'
    cases hd'
    have hz' : u.avbt.isZero = true := by simpa using hz
    simp only [Uri.Uri.ruleKeyword, hz', hd]
    rcases hk' with rfl | rfl | rfl
    · rw [hk]; simp [bkwConst, BindGDN]; decide
    · rw [hk] at hu; rcases hu with hu | hu <;> exact absurd hu (by decide)
    · rw [hk]; simp [bkwConst, BindGDN]

/-- **C72**, bind rules: every listed method of a usable value makes a valid rule with the
operator it is listed under, the keyword of the value and the value.  Missing: URIs whose
name is a role, or whose pair has the keyword `groupattr`. -/
theorem C72_bind_partial (S : Shifty 8) (v : BVal) (k : BKw) (m : List (Cop × BRule))
    (hk : v.Speaks k) (hv : v.Filled S) (hu : uriFits v) (hm : brm S v = some m) (q : Rel) (r : BRule)
    (h : (relConst q, r) ∈ m) : BMade r k q v.expr := by
  cases v with
  | dn d =>
    cases hm
    obtain ⟨n, rfl, hn, hk⟩ := hk
    obtain ⟨n', t, he, ht⟩ := hv
    cases he
    exact eqNe_rule (dnKw_eqNe hk) rfl
      (fun op => by simp [bindDNCond, DN.isZero, DN.keyword, ht, bindKwArg, hn]; rfl) h
  | dns d =>
    cases hm
    obtain ⟨l, rfl, hn, hk⟩ := hk
    exact eqNe_rule (dnKw_eqNe hk) rfl (fun op => by simp [bindDNsCond, hn]; rfl) h
  | uri u =>
    cases hm
    obtain ⟨w, rfl, hk⟩ := hk
    obtain ⟨w', n, t, he, hn, ht⟩ := hv
    cases he
    exact eqNe_rule (uriSpeaks_eqNe hk) rfl
      (fun op => by simp [uriCond, Uri.Uri.valid, hn, DN.isZero, ht, uri_ruleKeyword hk hu]; rfl) h
  | inh i =>
    cases hm
    obtain ⟨j, rfl, hn, hk⟩ := hk
    obtain ⟨j', he, hc, h0⟩ := hv
    cases he
    have hz : j.abtv.isZero = false := by
      unfold ABTV.isZero
      cases hcell : j.abtv.cell with
      | none => exact absurd hcell hc
      | some c => simpa using h0
    exact eqNe_rule (pairKw_eqNe hk) rfl
      (fun op => by simp [inhCond, Levels.valid, Levels.isZero, hz, inhKw, hn]; rfl) h
  | pair a =>
    cases hm
    obtain ⟨c, hc, hn⟩ := hv
    have hz : cellIsZero a.cell = false := by
      rw [hc]
      rcases hn with hn | hn
      · cases hat : c.at_ with
        | none => exact absurd hat hn
        | some _ => simp [cellIsZero, hat]
      · simp [cellIsZero, hn]
    exact eqNe_rule (pairKw_eqNe hk.2) rfl (fun op => by simp [pairCond, hz, hk.1]; rfl) h
  | ip a =>
    cases hm; cases hk
    exact eqNe_rule (bkw_eqNe _ (by decide) (by decide)) rfl
      (fun op => if_pos hv) h
  | fqdn f =>
    cases hm; cases hk
    exact eqNe_rule (bkw_eqNe _ (by decide) (by decide)) rfl
      (fun op => if_pos hv) h
  | dow d =>
    cases hm; cases hk
    exact eqNe_rule (bkw_eqNe _ (by decide) (by decide)) rfl
      (fun op => if_pos hv) h
  | tod t =>
    cases hm; cases hk
    have ht : Time.TimeOfDay.valid t = true := by
      cases t with
      | none => exact absurd rfl hv
      | some _ => rfl
    exact six_rule (fun q => by cases q <;> rfl) rfl
      (fun op => by simp only [todCond]; rw [if_pos ht]; rfl) h
  | am a =>
    cases hm; cases hk
    exact eqNe_rule (bkw_eqNe _ (by decide) (by decide)) rfl
      (fun op => if_neg hv) h
  | ssf s =>
    cases hm; cases hk
    exact six_rule (fun q => by cases q <;> rfl) rfl (fun op => rfl) h

example : ∃ q r, (relConst q, r) ∈ eqNe (bindDNCond · (GDN b!"cn=x")) ∧
    BMade r .groupdn q (BVal.dn (GDN b!"cn=x")).expr :=
  ⟨.ne, _, (mem_eqNe _ _ _).2 ⟨Or.inr rfl, rfl⟩,
    C72_bind_partial (.anyRef 8) (.dn (GDN b!"cn=x")) .groupdn _ ⟨_, rfl, rfl, Or.inr (Or.inr rfl)⟩
      ⟨_, _, rfl, rfl⟩ trivial rfl .ne _ ((mem_eqNe _ _ _).2 ⟨Or.inr rfl, rfl⟩)⟩

/-- **C72**, bind rules: no listed method of an unusable value makes a valid rule. -/
theorem C72_bind_unusable (S : Shifty 8) (v : BVal) (m : List (Cop × BRule)) (hv : ¬ v.Filled S)
    (hm : brm S v = some m) (q : Rel) (r : BRule) (h : (relConst q, r) ∈ m) : r.valid = false := by
  have two : ∀ {f : Cop → BRule}, (∀ op, f op = badBindRule) → (relConst q, r) ∈ eqNe f → r.valid = false := by
    intro f hf h
    obtain ⟨_, rfl⟩ := (mem_eqNe f q r).1 h
    rw [hf]; rfl
  cases v with
  | dn d =>
    cases hm
    refine two (fun op => ?_) h
    have : DN.isZero d = true := by
      cases d with
      | none => rfl
      | some n =>
        cases ht : n.text with
        | none => simp [DN.isZero, ht]
        | some t => exact absurd ⟨n, t, rfl, ht⟩ hv
    simp [bindDNCond, this]
  | dns d =>
    cases hm
    refine two (fun op => ?_) h
    cases d with
    | none => rfl
    | some l => exact absurd (by simp [BVal.Filled]) hv
  | uri u =>
    cases hm
    refine two (fun op => ?_) h
    cases u with
    | none => rfl
    | some w =>
      have : w.valid = false := by
        simp only [Uri.Uri.valid, Bool.not_eq_false']
        cases hd : w.dn with
        | none => rfl
        | some n =>
          cases ht : n.text with
          | none => simp [DN.isZero, ht]
          | some t => exact absurd ⟨w, n, t, rfl, hd, ht⟩ hv
      simp [uriCond, this]
  | inh i =>
    cases hm
    refine two (fun op => ?_) h
    cases i with
    | none => rfl
    | some j =>
      have : j.abtv.isZero = true := by
        unfold ABTV.isZero
        cases hc : j.abtv.cell with
        | none => rfl
        | some c =>
          by_cases h0 : j.abtv.kw = 0
          · simp [h0]
          · exact absurd ⟨j, rfl, by simp [hc], h0⟩ hv
      simp [inhCond, Levels.valid, Levels.isZero, this]
  | pair a =>
    cases hm
    refine two (fun op => ?_) h
    have : cellIsZero a.cell = true := by
      cases hc : a.cell with
      | none => rfl
      | some c =>
        cases hat : c.at_ with
        | some x => exact absurd ⟨c, hc, Or.inl (by simp [hat])⟩ hv
        | none =>
          by_cases hn : c.v = .nil
          · simp [cellIsZero, hat, hn]
          · exact absurd ⟨c, hc, Or.inr hn⟩ hv
    simp [pairCond, this]
  | ip a => cases hm; exact two (fun op => if_neg hv) h
  | fqdn f => cases hm; exact two (fun op => if_neg hv) h
  | dow d => cases hm; exact two (fun op => if_neg hv) h
  | tod t =>
    cases hm
    rw [(mem_allSix _ q r).1 h]
    cases t with
    | none => rfl
    | some x => exact absurd (by simp [BVal.Filled]) hv
  | am a =>
    cases hm
    refine two (fun op => ?_) h
    have : a = Sec.noAuth := by
      by_cases h0 : a = 0
      · exact h0
      · exact absurd h0 hv
    simp [amCond, this]
  | ssf s => exact absurd trivial hv

example : ¬ (BVal.pair ⟨BindUAT, some ⟨none, .nil⟩⟩).Filled (.anyRef 8) := by
  rintro ⟨c, hc, hn⟩
  cases hc
  rcases hn with hn | hn <;> exact hn rfl

/-- **C72**, target rules: the full claim. -/
def TargetMethods : Prop :=
  ∀ (v : TVal) (k : TKw) (m : List (Cop × TRule)), v.Speaks k → v.Filled →
    trm v = some m → ∀ q r, (relConst q, r) ∈ m → TMade r k q v.expr

/-- **C72** fails for filter operations: the method listed for `Ne` makes the zero rule. -/
theorem C72_target_counterexample : ¬ TargetMethods := by
  intro h
  have := h (.afos (some ⟨44, []⟩)) .targattrfilters _ rfl (by simp [TVal.Filled]) rfl .ne badTargetRule
    (by simp [relConst])
  exact absurd this.1 (by rw [badT_invalid]; decide)

theorem eqNe_ruleT {k : TKw} {f : Cop → TRule} {ex : TExpr}
    (ha : ∀ q, k.allows q = true ↔ q = .eq ∨ q = .ne)
    (he : ex.isNil = false) (hf : ∀ op, f op = TR (.target (tkwConst k)) (.cop op) ex) {q : Rel} {r : TRule}
    (h : (relConst q, r) ∈ eqNe f) : TMade r k q ex := by
  obtain ⟨hq, rfl⟩ := (mem_eqNe f q r).1 h
  rw [hf]
  exact tr_made k q ((ha q).2 hq) ex he

theorem oids_kind {o : Oid.OIDs} {k : TKw} (h : o.kw = tkwConst k) (hk : oidKw k) : o.kind = k.name := by
  unfold Oid.OIDs.kind
  rw [h]
  rcases hk with rfl | rfl <;> decide +kernel

theorem pair_mem {ρ : Type} {a b r : ρ} {q : Rel} (h : (relConst q, r) ∈ [(Eq', a), (Ne', b)]) :
    (q = .eq ∧ r = a) ∨ (q = .ne ∧ r = b) := by
  cases q <;> simp_all [relConst, Eq', Ne', Lt', Gt', Le', Ge']

/-- **C72**, target rules: every listed method of a usable value makes a valid rule with
the operator it is listed under, the keyword of the value and the value; for filter
operations the one for `Eq`.  Missing: the method for `Ne` of filter operations. -/
theorem C72_target_partial (v : TVal) (k : TKw) (m : List (Cop × TRule)) (hk : v.Speaks k)
    (hv : v.Filled) (hm : trm v = some m) (q : Rel) (r : TRule) (h : (relConst q, r) ∈ m)
    (hq : v.isOp = true → q = .eq) : TMade r k q v.expr := by
  cases v with
  | scope s =>
    cases hm; cases hk
    have : q = .eq ∧ r = scopeEq s := by
      cases q <;> simp_all [relConst, Eq', Ne', Lt', Gt', Le', Ge']
    obtain ⟨rfl, rfl⟩ := this
    have hs : scopeEq s = TR (.target TargetScope) (.cop Eq') (.scope s) := if_neg hv
    rw [hs]
    exact tr_made .targetscope .eq rfl _ rfl
  | filter f =>
    cases hm; cases hk
    obtain ⟨t, rfl, ht⟩ := hv
    exact eqNe_ruleT (fun q => by cases q <;> simp [TKw.allows]) rfl
      (fun op => by simp [filterCond, SearchFilter.isZero, ht]; rfl) h
  | at_ a =>
    cases hm; cases hk
    obtain ⟨t, rfl, ht⟩ := hv
    exact eqNe_ruleT (fun q => by cases q <;> simp [TKw.allows]) rfl
      (fun op => by simp [atCond, AttributeType.isZero, ht]; rfl) h
  | ats a =>
    obtain ⟨ha, rfl⟩ := hk
    cases a with
    | none => cases ha
    | some a =>
      cases hm
      exact eqNe_ruleT (fun q => by cases q <;> simp [TKw.allows]) rfl (fun op => rfl) h
  | uriAts a => cases hk
  | oid o =>
    cases hm
    obtain ⟨n, rfl, hn, hk⟩ := hk
    obtain ⟨n', t, he, ht⟩ := hv
    cases he
    have h0 : (n.kw == 0) = false := by
      rw [hn]; rcases hk with rfl | rfl <;> decide
    exact eqNe_ruleT (oidKw_eqNe hk) rfl
      (fun op => by simp [oidCond, Oid.isZero, ht, hn ▸ h0, hn]; rfl) h
  | oids o =>
    obtain ⟨l, rfl, hn, hk⟩ := hk
    cases hm
    have hkind := oids_kind hn hk
    have hd : KwDenotes (.str l.kind) k := by
      rw [hkind]; simp [KwDenotes, name_eqFold]
    have hmade : ∀ q', k.allows q' = true → TMade (oidsCond (relConst q') l) k q' (.oids l) := fun q' ha =>
      ⟨(C62_target_valid _ _ _).2 ⟨by simp, k, q', hd, rfl, ha⟩, ((C62_target _ k hd (.cop (relConst q')) (.oids l)).1 q' rfl ha).1, rfl⟩
    rcases pair_mem h with ⟨rfl, rfl⟩ | ⟨rfl, rfl⟩
    · have : ¬ l.kind = b!"<uninitialized>" := by
        rw [hkind]; rcases hk with rfl | rfl <;> decide
      simp only [oidsEq]
      rw [if_neg this]
      exact hmade .eq ((oidKw_eqNe hk _).2 (Or.inl rfl))
    · exact hmade .ne ((oidKw_eqNe hk _).2 (Or.inr rfl))
  | dn d =>
    cases hm
    obtain ⟨n, rfl, hn, hk⟩ := hk
    obtain ⟨n', t, he, ht⟩ := hv
    cases he
    exact eqNe_ruleT (tdnKw_eqNe hk) rfl
      (fun op => by simp [targetDNCond, DN.isZero, DN.keyword, ht, targetKwArg, hn]; rfl) h
  | dns d =>
    cases hm
    obtain ⟨l, rfl, hn, hk⟩ := hk
    exact eqNe_ruleT (tdnKw_eqNe hk) rfl (fun op => by simp [targetDNsCond, dnsCond, hn]; rfl) h
  | afo a =>
    cases hm; cases hk
    cases hq rfl
    cases a with
    | none => exact absurd rfl hv
    | some a =>
      rcases pair_mem h with ⟨_, rfl⟩ | ⟨h', _⟩
      · exact tr_made .targattrfilters .eq rfl _ rfl
      · cases h'
  | afos a =>
    cases hm; cases hk
    cases hq rfl
    cases a with
    | none => exact absurd rfl hv
    | some a =>
      rcases pair_mem h with ⟨_, rfl⟩ | ⟨h', _⟩
      · exact tr_made .targattrfilters .eq rfl _ rfl
      · cases h'

example : TMade (targetDNCond Ne' (TTDN b!"cn=x")) .target_to .ne (.dn (TTDN b!"cn=x")) :=
  C72_target_partial (.dn (TTDN b!"cn=x")) .target_to _ ⟨_, rfl, rfl, Or.inr (Or.inl rfl)⟩
    ⟨_, _, rfl, rfl⟩ rfl .ne _ ((mem_eqNe _ _ _).2 ⟨Or.inr rfl, rfl⟩) (by intro h; cases h)

/-- **C72**, target rules: no listed method of an unusable value makes a valid rule. -/
theorem C72_target_unusable (v : TVal) (m : List (Cop × TRule)) (hv : ¬ v.Filled)
    (hm : trm v = some m) (q : Rel) (r : TRule) (h : (relConst q, r) ∈ m) : r.valid = false := by
  have two : ∀ {f : Cop → TRule}, (∀ op, f op = badTargetRule) → (relConst q, r) ∈ eqNe f → r.valid = false := by
    intro f hf h
    obtain ⟨_, rfl⟩ := (mem_eqNe f q r).1 h
    rw [hf]; rfl
  have pr : ∀ {a b : TRule}, a = badTargetRule → b = badTargetRule →
      (relConst q, r) ∈ [(Eq', a), (Ne', b)] → r.valid = false := by
    intro a b ha hb h
    rcases pair_mem h with ⟨_, rfl⟩ | ⟨_, rfl⟩
    · rw [ha]; rfl
    · rw [hb]; rfl
  cases v with
  | scope s =>
    cases hm
    have hs : s = SearchScope.noScope := Classical.byContradiction fun hn => hv hn
    have : r = scopeEq s := by
      cases q <;> simp_all [relConst, Eq', Ne', Lt', Gt', Le', Ge']
    rw [this, hs]; rfl
  | filter f =>
    cases hm
    refine two (fun op => ?_) h
    have : SearchFilter.isZero f = true := by
      cases f with
      | none => rfl
      | some t =>
        cases t with
        | nil => rfl
        | cons x l => exact absurd ⟨_, rfl, by simp⟩ hv
    simp [filterCond, this]
  | at_ a =>
    cases hm
    refine two (fun op => ?_) h
    have : AttributeType.isZero a = true := by
      cases a with
      | none => rfl
      | some t =>
        cases t with
        | nil => rfl
        | cons x l => exact absurd ⟨_, rfl, by simp⟩ hv
    simp [atCond, this]
  | ats a =>
    cases a with
    | none => cases hm
    | some a => exact absurd (by simp [TVal.Filled]) hv
  | uriAts a => cases hm
  | oid o =>
    cases hm
    refine two (fun op => ?_) h
    cases o with
    | none => rfl
    | some n =>
      cases ht : n.dot with
      | none => simp [oidCond, Oid.isZero, ht]
      | some t => exact absurd ⟨n, t, rfl, ht⟩ hv
  | oids o =>
    cases hm
    cases o with
    | none => exact pr rfl rfl h
    | some l => exact absurd (by simp [TVal.Filled]) hv
  | dn d =>
    cases hm
    refine two (fun op => ?_) h
    have : DN.isZero d = true := by
      cases d with
      | none => rfl
      | some n =>
        cases ht : n.text with
        | none => simp [DN.isZero, ht]
        | some t => exact absurd ⟨n, t, rfl, ht⟩ hv
    simp [targetDNCond, this]
  | dns d =>
    cases hm
    refine two (fun op => ?_) h
    cases d with
    | none => rfl
    | some l => exact absurd (by simp [TVal.Filled]) hv
  | afo a =>
    cases hm
    cases a with
    | none => exact pr rfl rfl h
    | some l => exact absurd (by simp [TVal.Filled]) hv
  | afos a =>
    cases hm
    cases a with
    | none => exact pr rfl rfl h
    | some l => exact absurd (by simp [TVal.Filled]) hv

example : ¬ (TVal.oid (some ⟨TargetCtrl, none⟩)).Filled := by
  rintro ⟨n, t, hn, ht⟩
  cases hn
  cases ht

/-! ## C73 -/

/-- **C73**, the full claim: if `Valid` of a table reports no error, every method of the
table makes a valid rule. -/
def AnyMeansAll : Prop :=
  (∀ (S : Shifty 8) (v : BVal) (m : List (Cop × BRule)), brm S v = some m →
    bindMethodsValid (some m) = some true → ∀ q r, (relConst q, r) ∈ m → r.valid = true) ∧
  ∀ (v : TVal) (m : List (Cop × TRule)), trm v = some m →
    targetMethodsValid (some m) = some true → ∀ q r, (relConst q, r) ∈ m → r.valid = true

/-- A pair filled by `Set` from the zero value has no keyword. -/
def setPair : ABTV := ABTV.zero.set [.str b!"manager", .str b!"USERDN"]

/-- **C73** fails on both sides: for a pair filled by `Set` from the zero value `Eq` makes
a rule that passes `Valid`, with the keyword `<invalid_bind_keyword>`, and `Ne` makes one
that does not; and `Ne` of filter operations makes the zero rule. -/
theorem C73_counterexample : ¬ AnyMeansAll ∧
    (∃ m, brm (.anyRef 8) (.pair setPair) = some m ∧ bindMethodsValid (some m) = some true ∧
      (pairCond Eq' setPair).core.kw = b!"<invalid_bind_keyword>" ∧
      (relConst .ne, pairCond Ne' setPair) ∈ m ∧ (pairCond Ne' setPair).valid = false) ∧
    ∃ m, trm (.afos (some ⟨44, []⟩)) = some m ∧ targetMethodsValid (some m) = some true ∧
      (relConst .ne, badTargetRule) ∈ m := by
  have hb : ∃ m, brm (.anyRef 8) (.pair setPair) = some m ∧ bindMethodsValid (some m) = some true ∧
      (pairCond Eq' setPair).core.kw = b!"<invalid_bind_keyword>" ∧
      (relConst .ne, pairCond Ne' setPair) ∈ m ∧ (pairCond Ne' setPair).valid = false :=
    ⟨_, rfl, by decide +kernel, by decide +kernel, (mem_eqNe _ _ _).2 ⟨Or.inr rfl, rfl⟩, by decide +kernel⟩
  refine ⟨fun h => ?_, hb, _, rfl, by decide +kernel, by simp [relConst]⟩
  obtain ⟨m, hm, hv, _, hmem, hf⟩ := hb
  have := h.1 _ _ m hm hv .ne _ hmem
  rw [hf] at this
  cases this

/-- **C73**, bind rules: `Valid` of the table of a value never calls a nil method, and for
values with a known keyword and for all URIs it reports no error exactly when every method
of the table makes a valid rule.  Missing: pairs without keyword. -/
theorem C73_bind_partial (S : Shifty 8) (v : BVal) (m : List (Cop × BRule)) (hm : brm S v = some m) :
    bindMethodsValid (some m) ≠ none ∧
    ((∃ k, v.Speaks k) ∨ (∃ u, v = .uri u) →
      (bindMethodsValid (some m) = some true ↔ ∀ q r, (relConst q, r) ∈ m → r.valid = true)) := by
  have first : ∃ r, (relConst .eq, r) ∈ m ∧ bindMethodsValid (some m) = some r.valid := by
    cases v <;> cases hm <;>
      first
      | exact ⟨_, (mem_eqNe _ _ _).2 ⟨Or.inl rfl, rfl⟩, rfl⟩
      | exact ⟨_, (mem_allSix _ _ _).2 rfl, rfl⟩
  obtain ⟨r0, hr0, hv0⟩ := first
  refine ⟨by rw [hv0]; simp, fun hk => ⟨fun hv q r hr => ?_, fun hall => by rw [hv0, hall _ _ hr0]⟩⟩
  have hfill : v.Filled S := by
    refine Classical.byContradiction fun hn => ?_
    have := C72_bind_unusable S v m hn hm _ _ hr0
    rw [hv0, this] at hv
    cases hv
  by_cases hu : ∃ u, v = .uri u
  · obtain ⟨u, rfl⟩ := hu
    obtain ⟨w, n, t, rfl, hn, ht⟩ := hfill
    cases hm
    obtain ⟨hq, rfl⟩ := (mem_eqNe _ _ _).1 hr
    have hw : w.valid = true := by simp [Uri.Uri.valid, hn, DN.isZero, ht]
    have hkw : ∃ k : BKw, w.ruleKeyword = bkwConst k ∧ ∀ q, k.allows q = true ↔ q = .eq ∨ q = .ne := by
      unfold Uri.Uri.ruleKeyword
      split
      · exact ⟨.userattr, rfl, pairKw_eqNe (Or.inl rfl)⟩
      · rw [hn]
        dsimp only
        split
        · exact ⟨.groupdn, rfl, dnKw_eqNe (Or.inr (Or.inr rfl))⟩
        · exact ⟨.userdn, rfl, dnKw_eqNe (Or.inl rfl)⟩
    obtain ⟨k, hk', ha⟩ := hkw
    simp only [uriCond, hw, if_true, hk']
    exact (br_made k q ((ha q).2 hq) _ rfl).1
  · rcases hk with ⟨k, hk⟩ | h
    · refine (C72_bind_partial S v k m hk hfill ?_ hm q r hr).1
      cases v <;> first | trivial | exact absurd ⟨_, rfl⟩ hu
    · exact absurd h hu

example : bindMethodsValid (brm (.anyRef 8) (.am 1)) = some true := by decide +kernel

/-- **C73**, target rules: `Valid` of the table of a value never calls a nil method; for
values with a known keyword other than filter operations it reports no error exactly when
every method of the table makes a valid rule.  For filter operations it reports no error
exactly when the value is usable.  Missing: `Valid` of the tables of filter operations says
nothing about `Ne`. -/
theorem C73_target_partial (v : TVal) (m : List (Cop × TRule)) (hm : trm v = some m) :
    targetMethodsValid (some m) ≠ none ∧
    (v.isOp = false → (∃ k, v.Speaks k) →
      (targetMethodsValid (some m) = some true ↔ ∀ q r, (relConst q, r) ∈ m → r.valid = true)) ∧
    (v.isOp = true → (targetMethodsValid (some m) = some true ↔ v.Filled)) := by
  have first : ∃ r, (relConst .eq, r) ∈ m ∧ targetMethodsValid (some m) = some r.valid := by
    cases v with
    | ats a =>
      cases a with
      | none => cases hm
      | some a => cases hm; exact ⟨_, (mem_eqNe _ _ _).2 ⟨Or.inl rfl, rfl⟩, rfl⟩
    | uriAts a => cases hm
    | scope s => cases hm; exact ⟨_, by simp [relConst], rfl⟩
    | oids o => cases hm; exact ⟨_, by simp [relConst], rfl⟩
    | afo a => cases hm; exact ⟨_, by simp [relConst, Eq', Ne'], rfl⟩
    | afos a => cases hm; exact ⟨_, by simp [relConst, Eq', Ne'], rfl⟩
    | _ => cases hm; exact ⟨_, (mem_eqNe _ _ _).2 ⟨Or.inl rfl, rfl⟩, rfl⟩
  obtain ⟨r0, hr0, hv0⟩ := first
  have hfill : targetMethodsValid (some m) = some true → v.Filled := fun hv => by
    refine Classical.byContradiction fun hn => ?_
    have := C72_target_unusable v m hn hm _ _ hr0
    rw [hv0, this] at hv
    cases hv
  refine ⟨by rw [hv0]; simp, fun ho ⟨k, hk⟩ => ⟨fun hv q r hr => ?_, fun hall => by rw [hv0, hall _ _ hr0]⟩,
    fun ho => ⟨hfill, fun hf => ?_⟩⟩
  · exact (C72_target_partial v k m hk (hfill hv) hm q r hr (fun h => absurd (ho.symm.trans h) (by decide))).1
  · have hk : v.Speaks .targattrfilters := by cases v <;> first | rfl | cases ho
    rw [hv0, (C72_target_partial v _ m hk hf hm _ _ hr0 fun _ => rfl).1]

example : (TVal.filter (some b!"(a=b)")).Filled ∧ ∃ k, (TVal.filter (some b!"(a=b)")).Speaks k :=
  ⟨⟨_, rfl, by decide⟩, _, rfl⟩

/-! ## C74 -/

/-- **C74**, the full claim: in every table, a documented number finds what the documented
names find. -/
def NumbersAsDocumented : Prop :=
  ∀ (μ : Type) (m : List (Cop × μ)), MapOk m → ∀ e ∈ documented,
    BindRuleMethods.index (some m) (.int e.1) = BindRuleMethods.index (some m) (.str e.2.1) ∧
    TargetRuleMethods.index (some m) (.int e.1) = TargetRuleMethods.index (some m) (.str e.2.1)

/-- **C74** fails: in the table of a strength factor the number four, documented for `Le`,
finds the method for `Gt`, and five, documented for `Gt`, that for `Le`. -/
theorem C74_counterexample : ¬ NumbersAsDocumented ∧
    (∀ s, BindRuleMethods.index (brm (.anyRef 8) (.ssf s)) (.int 4) = (Gt', some (ssfCond Gt' s)) ∧
      BindRuleMethods.index (brm (.anyRef 8) (.ssf s)) (.int 5) = (Le', some (ssfCond Le' s)) ∧
      BindRuleMethods.index (brm (.anyRef 8) (.ssf s)) (.str b!"Le") = (Le', some (ssfCond Le' s)) ∧
      BindRuleMethods.index (brm (.anyRef 8) (.ssf s)) (.str b!"Gt") = (Gt', some (ssfCond Gt' s))) := by
  refine ⟨fun h => ?_, fun s => ⟨rfl, rfl, ?_, ?_⟩⟩
  · have := (h Unit (allSix fun _ => ()) (mapOk_allSix _) (4, b!"Le", b!"Less Than Or Equal")
      (by decide)).1
    revert this
    decide +kernel
  · have : ∀ f : Cop → BRule, rangeFuncMap b!"Le" (allSix f) = (Le', some (f Le')) := by
      intro f
      simp only [allSix, rangeFuncMap]
      rw [if_neg (by decide +kernel), if_neg (by decide +kernel), if_neg (by decide +kernel),
        if_pos (by decide +kernel)]
    exact this (fun op => ssfCond op s)
  · have : ∀ f : Cop → BRule, rangeFuncMap b!"Gt" (allSix f) = (Gt', some (f Gt')) := by
      intro f
      simp only [allSix, rangeFuncMap]
      rw [if_neg (by decide +kernel), if_neg (by decide +kernel), if_neg (by decide +kernel),
        if_neg (by decide +kernel), if_pos (by decide +kernel)]
    exact this (fun op => ssfCond op s)

theorem bind_index_congr {μ : Type} (m : List (Cop × μ)) (hm : MapOk m) (a b : OpArg)
    (h : ∀ q, IdxDenotesMod a q ↔ IdxDenotesMod b q) :
    BindRuleMethods.index (some m) a = BindRuleMethods.index (some m) b := by
  rcases bind_index_shape m hm a with ha | ⟨q, f, ha⟩
  · rcases bind_index_shape m hm b with hb | ⟨q, f, hb⟩
    · rw [ha, hb]
    · obtain ⟨h1, h2⟩ := (C20_bind_index_partial m hm b q f).1 hb
      rw [hb]
      exact (C20_bind_index_partial m hm a q f).2 ⟨(h q).2 h1, h2⟩
  · obtain ⟨h1, h2⟩ := (C20_bind_index_partial m hm a q f).1 ha
    rw [ha]
    exact ((C20_bind_index_partial m hm b q f).2 ⟨(h q).1 h1, h2⟩).symm

theorem target_index_congr {μ : Type} (m : List (Cop × μ)) (hm : MapOk m) (a b : OpArg)
    (h : ∀ q, IdxDenotes a q ↔ IdxDenotes b q) :
    TargetRuleMethods.index (some m) a = TargetRuleMethods.index (some m) b := by
  rcases index_shape_t m hm a with ha | ⟨q, f, ha⟩
  · rcases index_shape_t m hm b with hb | ⟨q, f, hb⟩
    · rw [ha, hb]
    · obtain ⟨h1, h2⟩ := (C20_target_index m hm b q f).1 hb
      rw [hb]
      exact (C20_target_index m hm a q f).2 ⟨(h q).2 h1, h2⟩
  · obtain ⟨h1, h2⟩ := (C20_target_index m hm a q f).1 ha
    rw [ha]
    exact ((C20_target_index m hm b q f).2 ⟨(h q).1 h1, h2⟩).symm

/-- The operator whose name is documented beside a number denotes as the number, apart from
four and five. -/
theorem doc_denotes (e : Int × Str × Str) (he : e ∈ documented) (h4 : e.1 ≠ 4) (h5 : e.1 ≠ 5)
    (q : Rel) (s : Str) (hs : s = e.2.1 ∨ s = e.2.2) :
    (e.1 = (q.number : Int) ↔ ∃ t ∈ q.texts, Str.eqFold s t = true) ∧
    (e.1 % 256 = (q.number : Int) ↔ ∃ t ∈ q.texts, Str.eqFold s t = true) := by
  have key : ∀ e ∈ documented, e.1 ≠ 4 → e.1 ≠ 5 → ∀ q ∈ [Rel.eq, .ne, .lt, .gt, .le, .ge],
      ∀ s ∈ [e.2.1, e.2.2],
      (decide (e.1 = (q.number : Int)) = q.texts.any fun t => Str.eqFold s t) ∧
      (decide (e.1 % 256 = (q.number : Int)) = q.texts.any fun t => Str.eqFold s t) := by
    decide +kernel
  obtain ⟨k1, k2⟩ := key e he h4 h5 q (by cases q <;> simp) s (by simpa using hs)
  constructor
  · rw [← List.any_eq_true, ← k1, decide_eq_true_eq]
  · rw [← List.any_eq_true, ← k2, decide_eq_true_eq]

/-- **C74**, what holds: in every table, of bind or target rules, the numbers one, two, three
and six find what the names documented beside them find, be that a method or nothing.
Missing: four and five. -/
theorem C74_numbers_partial {μ : Type} (m : List (Cop × μ)) (hm : MapOk m) (e : Int × Str × Str)
    (he : e ∈ documented) (h4 : e.1 ≠ 4) (h5 : e.1 ≠ 5) (s : Str) (hs : s = e.2.1 ∨ s = e.2.2) :
    BindRuleMethods.index (some m) (.int e.1) = BindRuleMethods.index (some m) (.str s) ∧
    TargetRuleMethods.index (some m) (.int e.1) = TargetRuleMethods.index (some m) (.str s) := by
  constructor
  · refine bind_index_congr m hm _ _ fun q => ?_
    have h := (doc_denotes e he h4 h5 q s hs).2
    simp only [IdxDenotesMod, OpDenotes, false_or]
    constructor
    · rintro ⟨i, hi, hq⟩
      cases hi
      exact Or.inl (h.1 hq)
    · rintro (ht | ⟨i, hi, -⟩)
      · exact ⟨_, rfl, h.2 ht⟩
      · cases hi
  · refine target_index_congr m hm _ _ fun q => ?_
    have h := (doc_denotes e he h4 h5 q s hs).1
    simp only [IdxDenotes, OpDenotes, false_or]
    constructor
    · intro hi
      exact Or.inl (h.1 (by injection hi))
    · rintro (ht | hi)
      · rw [h.2 ht]
      · cases hi

example : (6, b!"Ge", b!"Greater Than Or Equal") ∈ documented ∧
    (BindRuleMethods.index (some (allSix fun c => c)) (.int 6)) = (Ge', some Ge') := by
  exact ⟨by decide, rfl⟩

/-- **C74.** The names documented for an operator find the method for this operator, in every
table of bind or target rules, and its constant does; so does its number, apart from four and five. -/
theorem C74_method {μ : Type} (m : List (Cop × μ)) (hm : MapOk m) (q : Rel) (f : μ) (a : OpArg)
    (ha : a = .str (rowOf q).2.1 ∨ a = .str (rowOf q).2.2 ∨ a = .cop (relConst q) ∨
      (a = .int (rowOf q).1 ∧ q ≠ .le ∧ q ≠ .gt)) :
    (BindRuleMethods.index (some m) a = (relConst q, some f) ↔ (relConst q, f) ∈ m) ∧
    (TargetRuleMethods.index (some m) a = (relConst q, some f) ↔ (relConst q, f) ∈ m) := by
  have hn : ∀ q : Rel, (∃ t ∈ q.texts, Str.eqFold (rowOf q).2.1 t = true) ∧
      (∃ t ∈ q.texts, Str.eqFold (rowOf q).2.2 t = true) := by
    intro q
    simp only [← List.any_eq_true]
    cases q <;> decide +kernel
  have hd : OpDenotes a q ∨ (a = .int q.number ∧ (q.number : Int) % 256 = q.number) := by
    rcases ha with rfl | rfl | rfl | ⟨rfl, h1, h2⟩
    · exact Or.inl (hn q).1
    · exact Or.inl (hn q).2
    · exact Or.inl rfl
    · right
      cases q <;> first | exact absurd rfl h1 | exact absurd rfl h2 | exact ⟨rfl, by decide⟩
  rw [C20_bind_index_partial m hm a q f, C20_target_index m hm a q f]
  constructor
  · refine ⟨fun h => h.2, fun h => ⟨?_, h⟩⟩
    rcases hd with h | ⟨h, h'⟩
    · exact Or.inl h
    · exact Or.inr ⟨_, h, h'⟩
  · refine ⟨fun h => h.2, fun h => ⟨?_, h⟩⟩
    rcases hd with h | ⟨h, -⟩
    · exact Or.inl h
    · exact Or.inr h

example : BindRuleMethods.index (some (allSix fun c => c)) (.str b!"Less Than Or Equal") = (Le', some Le') :=
  (C74_method _ (by
    refine ⟨by decide, ?_⟩
    intro e he
    simp only [allSix, List.map_cons, List.map_nil, List.mem_cons, List.not_mem_nil, or_false] at he
    rcases he with rfl | rfl | rfl | rfl | rfl | rfl
    · exact ⟨.eq, rfl⟩
    · exact ⟨.ne, rfl⟩
    · exact ⟨.lt, rfl⟩
    · exact ⟨.le, rfl⟩
    · exact ⟨.gt, rfl⟩
    · exact ⟨.ge, rfl⟩) .le Le' _ (by simp [rowOf])).1.2 (by decide)

/-- **C73.** A missing table is reported, and no method of it is called. -/
theorem C73_missing : bindMethodsValid none = some false ∧ targetMethodsValid none = some false := ⟨rfl, rfl⟩

end Verif.Builders
