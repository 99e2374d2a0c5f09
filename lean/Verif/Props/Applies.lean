import Verif.Props.Decide

/-!
# Where an instruction that is read applies (C128)
-/

namespace Verif.Applies
open Verif Verif.Spec Verif.Rules Verif.Ins Verif.Decide

/-- Target rules apply where all of them hold. -/
def Apply (τ : TRule → Prop) (l : List TRule) : Prop := ∀ r ∈ l, τ r

/-- `σ` tells which target rules of a text hold, `τ` which target rules of the package do: they agree on a rule and
the rule read from it, and on rules that were not read. -/
structure AgreeT (E : EqualFold) (d : Oid.DotReader) (σ τ : TRule → Prop) : Prop where
  read : ∀ r r', ReadAs E d r r' → (σ r ↔ τ r')
  raw : ∀ r, Parsed r → (σ r ↔ τ r)

/-- **C128**, the full claim: an instruction that is read applies exactly where its text does. -/
def ReadApplies : Prop :=
  ∀ (F : EqualFold) (d : Oid.DotReader) (w : PB.World) (rd : Str → Option PB.Store) (t : Ins.Tokens) (i : Instruction),
    w.env.eq = F.eq → w.dot = d.read → (∀ r ∈ t.targets, Parsed r) → Ins.parse w rd t = .ok i →
    ∀ σ τ, AgreeT F d σ τ → (Apply τ (trs i) ↔ Apply σ t.targets)

theorem parse_targets {F : EqualFold} {w : PB.World} {rd : Str → Option PB.Store} {t : Ins.Tokens} {i : Instruction}
    (hE : w.env.eq = F.eq) (h : Ins.parse w rd t = .ok i) :
    trs i = (processTargetRules w.env.eq w.dot t.targets).1 := by
  have hl : ∃ p, PB.processAll w rd t.rules = .ok p := by
    unfold Ins.parse at h
    cases hp : PB.processAll w rd t.rules with
    | ok p => exact ⟨p, rfl⟩
    | err => rw [hp] at h; cases h
    | panic => rw [hp] at h; cases h
  obtain ⟨p, hp⟩ := hl
  obtain ⟨us, vs, rs, he, hr, hs, -⟩ := loop_ok t.rules [] hp
  obtain ⟨i', hi, -, -, ht⟩ := parse_content w F hE rd t us vs rs he hr hs
  rw [hi] at h
  cases h
  exact ht

theorem assertAll_apply {F : EqualFold} {d : Oid.DotReader} {σ τ : TRule → Prop} (ha : AgreeT F d σ τ) (l : List TRule)
    (hp : ∀ r ∈ l, Parsed r) : Apply τ (assertAll F.eq d.read l).1 ↔ Apply σ l := by
  induction l with
  | nil => simp [assertAll, Apply]
  | cons r l ih =>
    have ih := ih fun r hr => hp r (List.mem_cons_of_mem _ hr)
    have hr := C45_rule F d r (hp r (List.mem_cons_self ..))
    have cons : ∀ (f : TRule → Prop) a m, Apply f (a :: m) ↔ f a ∧ Apply f m := by
      intro f a m; simp [Apply]
    rw [assertAll]
    split
    · next hb =>
      have hu : ¬ Unreadable F d r := fun hu => by rw [hr.1 hu] at hb; cases hb
      rw [cons, cons, ih, ha.read _ _ (hr.2 hu).2]
    · rw [Apply, Apply]
      exact ⟨fun h r hr => (ha.raw r (hp r hr)).2 (h r hr), fun h r hr => (ha.raw r (hp r hr)).1 (h r hr)⟩

theorem offered (rs : List TRule) (hp : ∀ r ∈ rs, Parsed r) :
    ∃ ps : List (TRule × TKw), Picks Rules.Offers (rs.map TRArg.rule) ps ∧ rs = ps.map (·.1) ∧ ∀ p ∈ ps, Has p.1 p.2 := by
  induction rs with
  | nil => exact ⟨[], .nil, rfl, by simp⟩
  | cons r rs ih =>
    obtain ⟨ps, h1, h2, h3⟩ := ih fun r hr => hp r (by simp [hr])
    obtain ⟨k, _, _, hk, _⟩ := hp r (by simp)
    refine ⟨(r, k) :: ps, .take ⟨rfl, hk⟩ h1, by simp [h2], ?_⟩
    intro p hp
    rcases List.mem_cons.1 hp with rfl | hp
    · exact hk
    · exact h3 p hp

/-- **C128**, half of the claim, for all texts: the instruction applies wherever its text does. Missing: that it
applies nowhere else. -/
theorem C128_no_less_partial (F : EqualFold) (d : Oid.DotReader) (w : PB.World) (rd : Str → Option PB.Store)
    (t : Ins.Tokens) (i : Instruction) (hE : w.env.eq = F.eq) (hd : w.dot = d.read) (hp : ∀ r ∈ t.targets, Parsed r)
    (h : Ins.parse w rd t = .ok i) (σ τ : TRule → Prop) (ha : AgreeT F d σ τ) (hs : Apply σ t.targets) :
    Apply τ (trs i) := by
  obtain ⟨ps, h1, h2, -⟩ := offered t.targets hp
  have hsub : ∀ r ∈ transferTRs [] t.targets, r ∈ t.targets := by
    intro r hr
    rw [transfer_firsts _ ps h1] at hr
    obtain ⟨p, hm, rfl⟩ := List.mem_map.1 hr
    rw [h2]
    exact List.mem_map_of_mem ((firsts_sublist _ _).subset hm)
  rw [parse_targets hE h, processTargetRules, hE, hd]
  exact (assertAll_apply ha _ fun r hr => hp r (hsub r hr)).2 fun r hr => hs r (hsub r hr)

/-- **C128** for texts in which no keyword occurs twice, readable or not. Missing: several rules with one keyword. -/
theorem C128_distinct_partial (F : EqualFold) (d : Oid.DotReader) (w : PB.World) (rd : Str → Option PB.Store)
    (t : Ins.Tokens) (i : Instruction) (hE : w.env.eq = F.eq) (hd : w.dot = d.read) (hp : ∀ r ∈ t.targets, Parsed r)
    (hk : ∀ (i j : Nat) (a b : TRule) (k : TKw), i < j → t.targets[i]? = some a → t.targets[j]? = some b →
      Has a k → ¬ Has b k)
    (h : Ins.parse w rd t = .ok i) (σ τ : TRule → Prop) (ha : AgreeT F d σ τ) :
    Apply τ (trs i) ↔ Apply σ t.targets := by
  obtain ⟨ps, h1, h2, h3⟩ := offered t.targets hp
  have hdist : Distinct sameKey ps := by
    intro i j a b hij ha hb
    simp only [sameKey, decide_eq_false_iff_not]
    intro e
    refine hk i j a.1 b.1 a.2 hij (by rw [h2]; simp [ha]) (by rw [h2]; simp [hb])
      (h3 a (List.mem_of_getElem? ha)) ?_
    rw [e]; exact h3 b (List.mem_of_getElem? hb)
  have ht : transferTRs [] t.targets = t.targets := by
    rw [transfer_firsts _ ps h1, firsts_distinct hdist, ← h2]
  rw [parse_targets hE h, processTargetRules, hE, hd, ht]
  exact assertAll_apply ha _ hp

example : ∃ t i, t.targets = [Rules.sampleRule b!"TargetAttr" b!"cn", Rules.sampleRule b!"targetscope" b!"blarg"] ∧
    (∀ r ∈ t.targets, Parsed r) ∧ Ins.parse PB.plainWorld (fun _ => none) t = .ok i ∧
    Unreadable .ref Oid.plainReader (Rules.sampleRule b!"targetscope" b!"blarg") ∧
    ∀ (i j : Nat) (a b : TRule) (k : TKw), i < j → t.targets[i]? = some a → t.targets[j]? = some b → Has a k → ¬ Has b k := by
  obtain ⟨r, hr⟩ := PB.readable_ok
  obtain ⟨i, hi, -⟩ := parse_content PB.plainWorld .ref rfl (fun _ => none)
    ⟨b!"x", [Rules.sampleRule b!"TargetAttr" b!"cn", Rules.sampleRule b!"targetscope" b!"blarg"], [some PB.readable]⟩
    [some PB.readable] [] [r] rfl (.cons hr .nil) (.inl rfl)
  refine ⟨_, i, rfl, ?_, hi, blarg_unreadable, ?_⟩
  · intro r hr
    simp only [List.mem_cons, List.not_mem_nil, or_false] at hr
    rcases hr with rfl | rfl
    · exact ⟨_, _, _, sample_attr, rfl⟩
    · exact ⟨.targetscope, _, _, ⟨rfl, by decide⟩, rfl⟩
  · intro i j a b k hij ha hb hka hkb
    have hj : j < 2 := by
      have := (List.getElem?_eq_some_iff.1 hb).1; simpa using this
    have hi0 : i = 0 := by omega
    have hj1 : j = 1 := by omega
    subst hi0; subst hj1
    simp at ha hb; subst ha; subst hb
    have e1 := has_unique sample_attr hka
    have e2 : TKw.targetscope = k := has_unique ⟨rfl, by decide⟩ hkb
    rw [← e1] at e2; cases e2

/-- **C128** for the text that an instruction prints: however it is split, the instruction read from it applies where
the instruction does. Missing: as for C100. -/
theorem C128_back_partial (F : EqualFold) (d : Oid.DotReader) (w : PB.World) (rd : Str → Option PB.Store)
    (P : Bind.Printing) (many : Bool → List Str → Str) (hP : Bind.Proper w.env F) (hd : w.dot = d.read)
    (hN : P.names.Perm Sec.authNames) (hw : Verif.Whole.Prints w (Bind.BExpr.texts P) many) (i : Ins.Body)
    (hi : Back.WholeI F d P w i) (t : Ins.Tokens) (ht : Back.SplitsI P many (Ins.string w (some i)) t) :
    ∃ i', Ins.parse w rd t = .ok i' ∧ ∀ τ : TRule → Prop,
      (∀ r r' : TRule, (r.core, r.ex) = (r'.core, r'.ex) → (τ r ↔ τ r')) → (Apply τ (trs i') ↔ Apply τ i.trs) := by
  obtain ⟨i', h1, -, -, h4, -⟩ := Back.C100_back_partial F d w rd P many hP hd hN hw i hi t ht
  refine ⟨some i', h1, fun τ hτ => ?_⟩
  have key : ∀ l m : List TRule, l.map Back.contentT = m.map Back.contentT → (Apply τ l ↔ Apply τ m) := by
    intro l
    induction l with
    | nil =>
      intro m hm
      cases m with
      | nil => exact Iff.rfl
      | cons b m => cases hm
    | cons a l ih =>
      intro m hm
      cases m with
      | nil => cases hm
      | cons b m =>
        simp only [List.map_cons, List.cons.injEq] at hm
        have cons : ∀ (f : TRule → Prop) a m, Apply f (a :: m) ↔ f a ∧ Apply f m := by
          intro f a m; simp [Apply]
        rw [cons, cons, ih m hm.2, hτ a b hm.1]
  exact key _ _ h4

/-! ## What fails -/

theorem value_fun {F : EqualFold} {d : Oid.DotReader} {r r1 r2 : TRule} (h1 : ReadAs F d r r1) (h2 : ReadAs F d r r2) :
    r1.core = r2.core ∧ r1.ex = r2.ex := by
  obtain ⟨k, s, vs, x, hr, hv, hc, rfl⟩ := h1
  obtain ⟨k', s', vs', x', hr', hv', hc', rfl⟩ := h2
  have e := has_unique hr.1 hr'.1
  subst e
  have e : TExpr.raw s vs = .raw s' vs' := hr.2.symm.trans hr'.2
  cases e
  have := ((value_iff hr _).2 hv).symm.trans ((value_iff hr _).2 hv')
  exact ⟨hc.trans hc'.symm, Except.ok.inj this⟩

theorem read_no_raw {F : EqualFold} {d : Oid.DotReader} {r r' : TRule} (h : ReadAs F d r r') : ¬ Parsed r' := by
  obtain ⟨k, s, vs, x, hr, hv, hc, rfl⟩ := h
  rintro ⟨k', s', vs', -, he⟩
  generalize r'.ex = x at hv he
  cases hv <;> cases he

/-- Which rules hold if those do not that are read as `bad` is. -/
theorem agree_without (F : EqualFold) (d : Oid.DotReader) (bad : TRule) : ∃ σ τ, AgreeT F d σ τ ∧
    (∀ r r', ReadAs F d r r' → (σ r ↔ ¬ ReadAs F d bad r')) := by
  have read : ∀ r r', ReadAs F d r r' → ((∃ r2, ReadAs F d r r2 ∧ ReadAs F d bad r2) ↔ ReadAs F d bad r') := by
    intro r r' h
    constructor
    · rintro ⟨r2, h1, h2⟩
      obtain ⟨e1, e2⟩ := value_fun h h1
      obtain ⟨k, s, vs, x, a, b, c, e⟩ := h2
      exact ⟨k, s, vs, x, a, b, e1.trans c, e2.trans e⟩
    · exact fun h' => ⟨r', h, h'⟩
  refine ⟨fun r => ¬ ∃ r2, ReadAs F d r r2 ∧ ReadAs F d bad r2,
    fun r => ¬ ReadAs F d bad r ∧ ¬ ∃ r2, ReadAs F d r r2 ∧ ReadAs F d bad r2, ⟨?_, ?_⟩,
    fun r r' h => not_congr (read r r' h)⟩
  · intro r r' h
    rw [read r r' h]
    refine ⟨fun hn => ⟨hn, ?_⟩, fun hn => hn.1⟩
    rintro ⟨r2, ⟨k, s, vs, x, h2, -⟩, -⟩
    exact read_no_raw h ⟨k, s, vs, h2⟩
  · intro r hr
    exact ⟨fun hn => ⟨fun h => read_no_raw h hr, hn⟩, fun hn => hn.2⟩

theorem sample_reads (v : Str) (hp : Parsed (Rules.sampleRule b!"targetattr" v))
    (hb : (Rules.TRule.assertValue EqualFold.ref.eq Oid.plainReader.read (Rules.sampleRule b!"targetattr" v)).2 = true) :
    ReadAs .ref Oid.plainReader (Rules.sampleRule b!"targetattr" v)
      (Rules.TRule.assertValue EqualFold.ref.eq Oid.plainReader.read (Rules.sampleRule b!"targetattr" v)).1 := by
  refine ((C45_rule .ref Oid.plainReader _ hp).2 fun hu => ?_).2
  rw [(C45_rule .ref Oid.plainReader _ hp).1 hu] at hb
  cases hb

/-- **C128** fails: of `( targetattr = "cn" )( targetattr = "sn" )` the second rule is dropped, so that the
instruction applies also where `targetattr = "sn"` does not hold. -/
theorem C128_counterexample : ¬ ReadApplies := by
  intro h
  have hp : ∀ v, Parsed (Rules.sampleRule b!"targetattr" v) := fun v =>
    ⟨.targetattr, _, _, ⟨rfl, (by decide : Str.eqFold b!"targetattr" TKw.targetattr.name = true)⟩, rfl⟩
  obtain ⟨σ, τ, ha, hσ⟩ := agree_without .ref Oid.plainReader (Rules.sampleRule b!"targetattr" b!"sn")
  obtain ⟨r, hr⟩ := PB.readable_ok
  obtain ⟨i, hi, -, -, ht⟩ := parse_content PB.plainWorld .ref rfl (fun _ => none)
    ⟨b!"x", [Rules.sampleRule b!"targetattr" b!"cn", Rules.sampleRule b!"targetattr" b!"sn"], [some PB.readable]⟩
    [some PB.readable] [] [r] rfl (.cons hr .nil) (.inl rfl)
  have h1 := sample_reads b!"cn" (hp _) (by decide +kernel)
  have h2 := sample_reads b!"sn" (hp _) (by decide +kernel)
  have hd : (Rules.TRule.assertValue EqualFold.ref.eq Oid.plainReader.read (Rules.sampleRule b!"targetattr" b!"cn")).1.ex.texts ≠
      (Rules.TRule.assertValue EqualFold.ref.eq Oid.plainReader.read (Rules.sampleRule b!"targetattr" b!"sn")).1.ex.texts := by
    decide +kernel
  have := (h .ref Oid.plainReader PB.plainWorld (fun _ => none) _ i rfl rfl (by
    intro r hr
    simp only [List.mem_cons, List.not_mem_nil, or_false] at hr
    rcases hr with rfl | rfl <;> exact hp _) hi σ τ ha).1 (by
    rw [ht]
    intro r hr
    have hk : transferTRs [] [Rules.sampleRule b!"targetattr" b!"cn", Rules.sampleRule b!"targetattr" b!"sn"] =
        [Rules.sampleRule b!"targetattr" b!"cn"] := by rfl
    have hl : (processTargetRules EqualFold.ref.eq Oid.plainReader.read
        [Rules.sampleRule b!"targetattr" b!"cn", Rules.sampleRule b!"targetattr" b!"sn"]).1 =
        [(Rules.TRule.assertValue EqualFold.ref.eq Oid.plainReader.read (Rules.sampleRule b!"targetattr" b!"cn")).1] := by
      rw [processTargetRules, hk, assertAll, if_pos (by decide +kernel)]
      rfl
    replace hr : r ∈ (processTargetRules EqualFold.ref.eq Oid.plainReader.read
        [Rules.sampleRule b!"targetattr" b!"cn", Rules.sampleRule b!"targetattr" b!"sn"]).1 := hr
    rw [hl, List.mem_singleton] at hr
    subst hr
    refine (ha.read _ _ h1).1 ((hσ _ _ h1).2 fun hb => hd ?_)
    rw [(value_fun hb h2).2])
  exact (hσ _ _ h2).1 (this _ (by simp)) h2

end Verif.Applies
