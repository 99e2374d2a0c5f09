import Verif.Props.InForce
import Verif.Props.Applies

/-!
# Whether the order of rules matters (C131)
-/

namespace Verif.Order
open Verif Verif.Spec Verif.Bind Verif.Rules Verif.PB Verif.Decide Verif.Whole Verif.InForce Verif.Applies

/-- **C131**, the full claim for permission bind rules: what a list allows and denies does not depend on the order in
which they were pushed. -/
def RulesOrderFree : Prop :=
  ∀ (w : World) (E : EqualFold) (val : BExpr → List Str) (many : Bool → List Str → Str), w.env.eq = E.eq →
    Prints w val many → ∀ (rd : Str → Option Store) (xs ys : List PArg), xs.Perm ys →
    ∀ neg (v : Str × Cop × List Str → Bool) allow q,
      Gives neg (fun r => v (r.asks val)) allow q (xs.foldl (fun es x => push w rd es [x]) []) ↔
        Gives neg (fun r => v (r.asks val)) allow q (ys.foldl (fun es x => push w rd es [x]) [])

/-- **C131**, the full claim for target rules: where a list applies does not depend on their order. -/
def TargetsOrderFree : Prop :=
  ∀ (stop : Bool) (xs ys : List TRArg), xs.Perm ys → ∀ τ : TRule → Prop,
    (Apply τ (xs.foldl (fun es x => TRs.push stop es [x]) []) ↔ Apply τ (ys.foldl (fun es x => TRs.push stop es [x]) []))

/-- **C131**, the full claim for bind rules: whether a stack holds does not depend on the order in which rules are
pushed onto it in one call. -/
def BindOrderFree : Prop :=
  ∀ (stop p : Bool) (o : Word) (es : List BCtx) (xs ys : List Bind.BArg), xs.Perm ys →
    ∀ (neg : List Bool → Bool) τ, (∀ l m : List Bool, l.Perm m → neg l = neg m) →
      (BCtx.rules o p (pushB stop es xs)).eval neg τ = (BCtx.rules o p (pushB stop es ys)).eval neg τ

/-! ## What holds -/

theorem picks_perm {A E : Type} {offers : A → E → Prop} {xs ys : List A} (h : xs.Perm ys) :
    ∀ {es}, Picks offers xs es → ∃ fs, Picks offers ys fs ∧ es.Perm fs := by
  induction h with
  | nil => exact fun hp => ⟨_, hp, List.Perm.refl _⟩
  | cons x _ ih =>
    intro es hp
    cases hp with
    | skip h1 h2 =>
      obtain ⟨fs, h3, h4⟩ := ih h2
      exact ⟨fs, .skip h1 h3, h4⟩
    | take h1 h2 =>
      obtain ⟨fs, h3, h4⟩ := ih h2
      exact ⟨_, .take h1 h3, h4.cons _⟩
  | swap x y l =>
    intro es hp
    cases hp with
    | skip h1 h2 =>
      cases h2 with
      | skip h3 h4 => exact ⟨_, .skip h3 (.skip h1 h4), List.Perm.refl _⟩
      | take h3 h4 => exact ⟨_, .take h3 (.skip h1 h4), List.Perm.refl _⟩
    | take h1 h2 =>
      cases h2 with
      | skip h3 h4 => exact ⟨_, .skip h3 (.take h1 h4), List.Perm.refl _⟩
      | take h3 h4 => exact ⟨_, .take h3 (.take h1 h4), List.Perm.swap _ _ _⟩
  | trans _ _ ih1 ih2 =>
    intro es hp
    obtain ⟨fs, h1, h2⟩ := ih1 hp
    obtain ⟨gs, h3, h4⟩ := ih2 h1
    exact ⟨gs, h3, h2.trans h4⟩

theorem gives_perm {l m : List PBRule} (h : l.Perm m) (neg : List Bool → Bool) (τ : BRule → Bool) (allow : Bool)
    (q : Priv) : Gives neg τ allow q l ↔ Gives neg τ allow q m := by
  simp only [Gives, h.mem_iff]

/-- **C131** for permission bind rules whose text shows what they mean, no two of which have texts that differ in the
case of letters alone.  Missing: the others (C126). -/
theorem C131_rules_partial (w : World) (E : EqualFold) (val : BExpr → List Str) (many : Bool → List Str → Str)
    (hE : w.env.eq = E.eq) (hw : Prints w val many) (rd : Str → Option Store) (xs ys : List PArg) (hxy : xs.Perm ys)
    (rs : List PBRule) (h : Picks (Offers rd) xs rs)
    (hs : ∀ r ∈ rs, ∃ p b, r = some ⟨p, some b⟩ ∧ RuleShown val p b)
    (hc : ∀ r ∈ rs, ∀ r' ∈ rs, sameText w r r' = true → string w r = string w r') (neg : List Bool → Bool)
    (v : Str × Cop × List Str → Bool) (q : Priv) :
    (∀ allow, Gives neg (fun r => v (r.asks val)) allow q (xs.foldl (fun es x => push w rd es [x]) []) ↔
        Gives neg (fun r => v (r.asks val)) allow q (ys.foldl (fun es x => push w rd es [x]) [])) ∧
    (Permits neg (fun r => v (r.asks val)) q (xs.foldl (fun es x => push w rd es [x]) []) ↔
        Permits neg (fun r => v (r.asks val)) q (ys.foldl (fun es x => push w rd es [x]) [])) := by
  obtain ⟨ss, h', hp⟩ := picks_perm hxy h
  have hx := C126_shown_partial w E val many hE hw rd xs rs h hs hc neg v q
  have hy := C126_shown_partial w E val many hE hw rd ys ss h' (fun r hr => hs r (hp.mem_iff.2 hr))
    (fun r hr r' hr' => hc r (hp.mem_iff.2 hr) r' (hp.mem_iff.2 hr')) neg v q
  have iff : ∀ allow, Gives neg (fun r => v (r.asks val)) allow q (xs.foldl (fun es x => push w rd es [x]) []) ↔
      Gives neg (fun r => v (r.asks val)) allow q (ys.foldl (fun es x => push w rd es [x]) []) := fun allow => by
    rw [hx.1 allow, hy.1 allow, gives_perm hp]
  exact ⟨iff, by simp only [Permits, iff]⟩

/-- Two rules of C126, in either order. -/
example : (∀ allow, Gives (fun _ => false) (fun r => onlyDNS (r.asks textVal)) allow .read
      ([PArg.rule readRule, .rule writeRule].foldl (fun es x => push textWorld (fun _ => none) es [x]) []) ↔
    Gives (fun _ => false) (fun r => onlyDNS (r.asks textVal)) allow .read
      ([PArg.rule writeRule, .rule readRule].foldl (fun es x => push textWorld (fun _ => none) es [x]) [])) := by
  have hs : ∀ n : BitVec 16, Rights.valid (some ⟨true, n⟩) = true ∧ Rights.WithinTen (some ⟨true, n⟩) →
      RuleShown textVal (some ⟨true, n⟩) (.rule (textRule BindSSF b!"1")) := by
    intro n hn
    refine ⟨hn, textRule_valid.1, by simp [BCtx.Clear], ?_⟩
    intro r hr
    simp only [BCtx.leaves, List.mem_singleton] at hr
    subst hr
    exact textRule_shown .ssf b!"1" (by decide)
  refine (C131_rules_partial textWorld .ref textVal _ rfl textWorld_prints _ _ _ (List.Perm.swap _ _ _) [readRule, writeRule]
    (.take ⟨⟨_, _, rfl⟩, .inl rfl⟩ (.take ⟨⟨_, _, rfl⟩, .inl rfl⟩ .nil)) ?_ (by decide +kernel) _ onlyDNS
    .read).1
  intro r hr
  simp only [List.mem_cons, List.not_mem_nil, or_false] at hr
  rcases hr with rfl | rfl
  · exact ⟨_, _, rfl, hs 1#16 ⟨by decide +kernel, by simp [Rights.WithinTen]⟩⟩
  · exact ⟨_, _, rfl, hs 2#16 ⟨by decide +kernel, by simp [Rights.WithinTen]⟩⟩

theorem firsts_self {α : Type} {same : α → α → Bool} {l : List α} (h : l.Pairwise fun a b => same a b = false) :
    firsts same l = l := by
  induction h with
  | nil => rfl
  | @cons a l ha _ ih =>
    rw [firsts, ih, List.filter_eq_self.2]
    intro b hb
    rw [ha b hb]; rfl

/-- **C131** for target rules with different keywords: they are all kept, in whatever order, so that the lists apply
in the same places.  Missing: several rules of one keyword, of which the first is kept (C43). -/
theorem C131_targets_partial (stop : Bool) (xs ys : List TRArg) (hxy : xs.Perm ys) (ps : List (TRule × TKw))
    (h : Picks Rules.Offers xs ps) (hk : ps.Pairwise fun a b => a.2 ≠ b.2) :
    (xs.foldl (fun es x => TRs.push stop es [x]) []).Perm (ys.foldl (fun es x => TRs.push stop es [x]) []) ∧
    ∀ τ : TRule → Prop, Apply τ (xs.foldl (fun es x => TRs.push stop es [x]) []) ↔
      Apply τ (ys.foldl (fun es x => TRs.push stop es [x]) []) := by
  obtain ⟨qs, h', hp⟩ := picks_perm hxy h
  have hk' : qs.Pairwise fun a b => a.2 ≠ b.2 := (hp.pairwise_iff (fun h => Ne.symm h)).1 hk
  have sep : ∀ {l : List (TRule × TKw)}, (l.Pairwise fun a b => a.2 ≠ b.2) → firsts sameKey l = l := fun hl =>
    firsts_self (hl.imp fun h => decide_eq_false h)
  have e : (xs.foldl (fun es x => TRs.push stop es [x]) []).Perm (ys.foldl (fun es x => TRs.push stop es [x]) []) := by
    rw [C43_content stop xs ps h, C43_content stop ys qs h', sep hk, sep hk']
    exact hp.map _
  exact ⟨e, fun τ => by simp only [Apply, e.mem_iff]⟩

example : ([TRArg.rule (Rules.sampleRule b!"TargetAttr" b!"cn"), .other, .rule (Rules.sampleRule b!"targetscope" b!"base")].foldl
      (fun es x => TRs.push true es [x]) []).Perm
    ([TRArg.other, .rule (Rules.sampleRule b!"targetscope" b!"base"), .rule (Rules.sampleRule b!"TargetAttr" b!"cn")].foldl
      (fun es x => TRs.push true es [x]) []) :=
  (C131_targets_partial true _ _ (List.perm_append_singleton _ [_, _]).symm [(_, .targetattr), (_, .targetscope)]
    (.take ⟨rfl, sample_attr⟩ (.skip (by rintro p ⟨h, _⟩; cases h) (.take ⟨rfl, sample_scope⟩ .nil))) (by simp)).1

theorem adds_perm {xs ys : List Bind.BArg} (h : xs.Perm ys) : ∀ {cs}, AddsAll xs cs → ∃ ds, AddsAll ys ds ∧ cs.Perm ds := by
  have e : ∀ {xs cs}, AddsAll xs cs ↔ Picks (fun x c => x = Bind.BArg.ctx c ∧ Usable c) xs cs := by
    intro xs cs
    constructor
    · intro h
      induction h with
      | nil => exact .nil
      | take h1 _ ih => exact .take ⟨rfl, h1⟩ ih
      | skip h1 _ ih => exact .skip (fun c h => h1 c h.1 h.2) ih
    · intro h
      induction h with
      | nil => exact .nil
      | take h1 _ ih => obtain ⟨rfl, h1⟩ := h1; exact .take h1 ih
      | skip h1 _ ih => exact .skip (fun c h2 h3 => h1 c ⟨h2, h3⟩) ih
  intro cs hc
  obtain ⟨ds, h1, h2⟩ := picks_perm h (e.1 hc)
  exact ⟨ds, e.2 h1, h2⟩

theorem evals_map (neg : List Bool → Bool) (τ : BRule → Bool) (es : List BCtx) :
    BCtx.evals neg τ es = es.map (BCtx.eval neg τ) := by
  induction es with
  | nil => rfl
  | cons e es ih => simp [BCtx.evals, ih]

theorem word_perm {neg : List Bool → Bool} (hn : ∀ l m : List Bool, l.Perm m → neg l = neg m) (o : Word)
    {l m : List Bool} (h : l.Perm m) : o.eval neg l = o.eval neg m := by
  cases o with
  | not => exact hn l m h
  | and => rw [Bool.eq_iff_iff]; simp [Word.eval, h.mem_iff]
  | or => rw [Bool.eq_iff_iff]; simp [Word.eval, h.mem_iff]

/-- **C131** for bind rules, if the stack goes on behind a refused argument, or if none is refused; for the word NOT
if the order does not matter to it.  Missing: calls that end at a refused argument. -/
theorem C131_bind_partial (stop p : Bool) (o : Word) (es : List BCtx) (xs ys : List Bind.BArg) (hxy : xs.Perm ys)
    (cs : List BCtx) (h : AddsAll xs cs) (hs : stop = true → ∀ x ∈ xs, ∃ c, x = .ctx c ∧ Usable c)
    (neg : List Bool → Bool) (τ : BRule → Bool) (hn : ∀ l m : List Bool, l.Perm m → neg l = neg m) :
    (pushB stop es xs).Perm (pushB stop es ys) ∧
    (BCtx.rules o p (pushB stop es xs)).eval neg τ = (BCtx.rules o p (pushB stop es ys)).eval neg τ := by
  obtain ⟨ds, h', hp⟩ := adds_perm hxy h
  have all : ∀ {xs cs}, AddsAll xs cs → (stop = true → ∀ x ∈ xs, ∃ c, x = .ctx c ∧ Usable c) →
      pushB stop es xs = es ++ cs := by
    intro xs cs h hs
    obtain ⟨h1, n, h2, h3⟩ := C48_push es xs cs h
    cases stop with
    | false => exact h1
    | true => rw [h2, h3 (hs rfl), List.take_length]
  have e : (pushB stop es xs).Perm (pushB stop es ys) := by
    rw [all h hs, all h' fun e x hx => hs e x (hxy.mem_iff.2 hx)]
    exact hp.append_left es
  refine ⟨e, ?_⟩
  simp only [BCtx.eval, evals_map]
  exact word_perm hn o (e.map _)

example : (BCtx.rules .or false (pushB true [] [.ctx (.rule (textRule BindDNS b!"1")), .ctx (.rule (textRule BindSSF b!"1"))])).eval
      (fun l => !l.any id) (fun r => onlyDNS (r.asks textVal)) =
    (BCtx.rules .or false (pushB true [] [.ctx (.rule (textRule BindSSF b!"1")), .ctx (.rule (textRule BindDNS b!"1"))])).eval
      (fun l => !l.any id) (fun r => onlyDNS (r.asks textVal)) := by
  have u : ∀ k ∈ [BindDNS, BindSSF], Usable (.rule (textRule k b!"1")) := by
    intro k hk
    simp only [List.mem_cons, List.not_mem_nil, or_false] at hk
    rcases hk with rfl | rfl
    · exact ⟨.dns, by decide⟩
    · exact ⟨.ssf, by decide⟩
  refine (C131_bind_partial true false .or [] _ _ (List.Perm.swap _ _ _) [.rule (textRule BindDNS b!"1"), .rule (textRule BindSSF b!"1")]
    (.take (u _ (by simp)) (.take (u _ (by simp)) .nil)) ?_ _ _ ?_).2
  · intro _ x hx
    simp only [List.mem_cons, List.not_mem_nil, or_false] at hx
    rcases hx with rfl | rfl
    · exact ⟨_, rfl, u _ (by simp)⟩
    · exact ⟨_, rfl, u _ (by simp)⟩
  · intro l m h
    have : l.any id = m.any id := by rw [Bool.eq_iff_iff]; simp [h.mem_iff]
    rw [this]

theorem fold_perm {α β : Type} {f : β → α → β} {xs ys : List α} (h : xs.Perm ys)
    (hc : ∀ a ∈ xs, ∀ b ∈ xs, ∀ v, f (f v a) b = f (f v b) a) : ∀ v, xs.foldl f v = ys.foldl f v := by
  induction h with
  | nil => exact fun _ => rfl
  | cons x _ ih =>
    exact fun v => ih (fun a ha b hb => hc a (List.mem_cons_of_mem _ ha) b (List.mem_cons_of_mem _ hb)) _
  | swap x y l =>
    intro v
    simp only [List.foldl_cons]
    rw [hc y (List.mem_cons_self ..) x (List.mem_cons_of_mem _ (List.mem_cons_self ..))]
  | trans h1 _ ih1 ih2 =>
    exact fun v => (ih1 hc v).trans (ih2 (fun a ha b hb => hc a (h1.mem_iff.2 ha) b (h1.mem_iff.2 hb)) v)

theorem mask_none {n : Nat} (v : BitVec n) : v = v ||| 0#n ∧ v = v &&& ~~~ 0#n := by
  simp [-BitVec.ofNat_eq_ofNat]

/-- Rounds that add or take bits given by the argument commute. -/
theorem masks_comm {α : Type} {n : Nat} {f g : BitVec n → α → BitVec n} {a b : α}
    (ha : ∃ m, ∀ v, f v a = v ||| m ∧ g v a = v &&& ~~~ m) (hb : ∃ m, ∀ v, f v b = v ||| m ∧ g v b = v &&& ~~~ m)
    (v : BitVec n) : f (f v a) b = f (f v b) a ∧ g (g v a) b = g (g v b) a := by
  obtain ⟨m, hm⟩ := ha
  obtain ⟨k, hk⟩ := hb
  simp only [(hm _).1, (hk _).1, (hm _).2, (hk _).2]
  exact ⟨by rw [BitVec.or_assoc, BitVec.or_comm m, ← BitVec.or_assoc],
    by rw [BitVec.and_assoc, BitVec.and_comm (~~~ m), ← BitVec.and_assoc]⟩

/-- **C131** for rights: the order in which they are given to a permission, or taken from it, makes no difference. -/
theorem C131_rights (S : Shifty 16) (p : Rights.Permission) (xs ys : List Rights.Arg) (h : xs.Perm ys)
    (hr : ∀ a ∈ xs, Rights.InRange a) :
    Rights.shift S p xs = Rights.shift S p ys ∧ Rights.unshift S p xs = Rights.unshift S p ys ∧
    Rights.Allow S xs = Rights.Allow S ys ∧ Rights.Deny S xs = Rights.Deny S ys := by
  have mask : ∀ a ∈ xs, ∃ m, ∀ v, Rights.shift1 S v a = v ||| m ∧ Rights.unshift1 S v a = v &&& ~~~ m := by
    intro a ha
    cases a with
    | int i =>
      have : Shifty.Fits 16 i := by
        have := hr _ ha i rfl
        simp only [Shifty.Fits]
        omega
      exact ⟨BitVec.ofInt 16 i, fun v => ⟨by simp [Rights.shift1, Shifty.shiftInt, this, Shifty.shift],
        by simp [Rights.unshift1, Shifty.unshiftInt, this, Shifty.unshift]⟩⟩
    | right r => exact ⟨r, fun v => ⟨rfl, rfl⟩⟩
    | str s =>
      cases e : Rights.rightsNames (Str.lower s) with
      | some m => exact ⟨m, fun v => ⟨by simp [Rights.shift1, e, Shifty.shift], by simp [Rights.unshift1, e, Shifty.unshift]⟩⟩
      | none => exact ⟨0#16, fun v => by simpa only [Rights.shift1, Rights.unshift1, e] using mask_none v⟩
    | other => exact ⟨0#16, mask_none⟩
  have k1 := fold_perm (f := Rights.shift1 S) h fun a ha b hb v => (masks_comm (mask a ha) (mask b hb) v).1
  have k2 := fold_perm (f := Rights.unshift1 S) h fun a ha b hb v => (masks_comm (mask a ha) (mask b hb) v).2
  refine ⟨?_, ?_, ?_, ?_⟩ <;>
    simp only [Rights.shift, Rights.unshift, Rights.Allow, Rights.Deny, Rights.newPermission, k1, k2]

example : Rights.Allow (.anyRef 16) [.str b!"read", .int 2] = Rights.Allow (.anyRef 16) [.int 2, .str b!"READ", .other] ∧
    Rights.Allow (.anyRef 16) [.str b!"read", .int 2] = Rights.Allow (.anyRef 16) [.int 2, .str b!"read"] :=
  ⟨by decide +kernel, (C131_rights (.anyRef 16) none _ _ (List.Perm.swap _ _ _) (by
    intro a ha i hi
    simp only [List.mem_cons, List.not_mem_nil, or_false] at ha
    rcases ha with rfl | rfl <;> cases hi
    omega)).2.2.1⟩

/-- **C131** for days of the week. -/
theorem C131_days (r : Time.DayOfWeek) (xs ys : List Time.Arg) (h : xs.Perm ys) :
    Time.shift r xs = Time.shift r ys ∧ Time.unshift r xs = Time.unshift r ys ∧ Time.DoW xs = Time.DoW ys := by
  have mask : ∀ a, ∃ m, ∀ v, Time.shift1 v a = v ||| m ∧ Time.unshift1 v a = v &&& ~~~ m := by
    intro a
    refine ⟨Time.matchDoW a, fun v => ?_⟩
    have c : ∀ d : BitVec 8, (if d ≠ Time.noDay then Shifty.shift v d else v) = v ||| d ∧
        (if d ≠ Time.noDay then Shifty.unshift v d else v) = v &&& ~~~ d := by
      intro d
      by_cases hd : d = Time.noDay
      · subst hd
        simp only [ne_eq, not_true, if_false]
        exact mask_none v
      · simp [hd, Shifty.shift, Shifty.unshift]
    cases a with
    | int i => exact c _
    | str s => exact c _
    | day d => exact ⟨rfl, rfl⟩
    | other => exact mask_none v
  have k1 := fold_perm (f := Time.shift1) h fun a _ b _ v => (masks_comm (mask a) (mask b) v).1
  have k2 := fold_perm (f := Time.unshift1) h fun a _ b _ v => (masks_comm (mask a) (mask b) v).2
  simp only [Time.shift, Time.unshift, Time.DoW, k1, k2, and_self]

example : Time.DoW [.str b!"Mon", .int 1] = Time.DoW [.int 1, .str b!"Mon"] ∧ Time.DoW [.str b!"Mon", .int 1] ≠ Time.DoW [.int 1] :=
  ⟨(C131_days none _ _ (List.Perm.swap _ _ _)).2.2, by decide +kernel⟩

/-- **C131** for the levels of an inheritance. -/
theorem C131_levels (r : Levels.Inheritance) (t : Attr.ABTV) (xs ys : List Levels.Arg) (h : xs.Perm ys) :
    Levels.shift r xs = Levels.shift r ys ∧ Levels.unshift r xs = Levels.unshift r ys ∧
    Levels.Inherit t xs = Levels.Inherit t ys := by
  have mask : ∀ a, ∃ m, ∀ v, Levels.shift1 v a = v ||| m ∧ Levels.unshift1 v a = v &&& ~~~ m :=
    fun a => ⟨Levels.level a, fun v => ⟨rfl, rfl⟩⟩
  have k1 := fold_perm (f := Levels.shift1) h fun a _ b _ v => (masks_comm (mask a) (mask b) v).1
  have k2 := fold_perm (f := Levels.unshift1) h fun a _ b _ v => (masks_comm (mask a) (mask b) v).2
  simp only [Levels.shift, Levels.unshift, Levels.Inherit, Levels.Inh.shift, Levels.Inh.unshift, k1, k2, and_self]

example : Levels.Inherit .zero [.str b!"2", .int 1] = Levels.Inherit .zero [.int 1, .str b!"2"] ∧
    Levels.Inherit .zero [.str b!"2", .int 1] ≠ Levels.Inherit .zero [.int 1] :=
  ⟨(C131_levels none _ _ _ (List.Perm.swap _ _ _)).2.2, by decide +kernel⟩

/-! ## What does not -/

/-- **C131** fails: of the two denials of C126 that have one text the first is kept, and they have different
meanings; of two rules of one target keyword the first is kept; a bind rule behind a refused argument is lost. -/
theorem C131_counterexample : ¬ RulesOrderFree ∧ ¬ TargetsOrderFree ∧ ¬ BindOrderFree := by
  refine ⟨?_, ?_, ?_⟩
  · intro h
    have := h textWorld .ref textVal _ rfl textWorld_prints (fun _ => none) [.rule denyFirst, .rule denySecond]
      [.rule denySecond, .rule denyFirst] (List.Perm.swap _ _ _) (fun _ => false) onlyDNS false .read
    rw [C49_content textWorld .ref rfl _ _ [denyFirst, denySecond]
        (.take ⟨⟨_, _, rfl⟩, .inl rfl⟩ (.take ⟨⟨_, _, rfl⟩, .inl rfl⟩ .nil)),
      C49_content textWorld .ref rfl _ _ [denySecond, denyFirst]
        (.take ⟨⟨_, _, rfl⟩, .inl rfl⟩ (.take ⟨⟨_, _, rfl⟩, .inl rfl⟩ .nil))] at this
    have e1 : firsts (sameText textWorld) [denyFirst, denySecond] = [denyFirst] := rfl
    have e2 : firsts (sameText textWorld) [denySecond, denyFirst] = [denySecond] := rfl
    rw [e1, e2] at this
    obtain ⟨c, b, hm, -, -, he⟩ := this.2 ⟨_, _, List.mem_singleton.2 rfl, rfl, by decide +kernel, by decide +kernel⟩
    simp only [List.mem_singleton, denyFirst, Option.some.injEq, Store.mk.injEq] at hm
    obtain ⟨rfl, rfl⟩ := hm
    revert he; decide +kernel
  · intro h
    have := h false [.rule (Rules.sampleRule b!"targetattr" b!"cn"), .rule (Rules.sampleRule b!"targetattr" b!"sn")]
      [.rule (Rules.sampleRule b!"targetattr" b!"sn"), .rule (Rules.sampleRule b!"targetattr" b!"cn")]
      (List.Perm.swap _ _ _) (fun r => r = Rules.sampleRule b!"targetattr" b!"cn")
    rw [C43_content false _ [(_, .targetattr), (_, .targetattr)]
        (.take ⟨rfl, ⟨rfl, by decide⟩⟩ (.take ⟨rfl, ⟨rfl, by decide⟩⟩ .nil)),
      C43_content false _ [(_, .targetattr), (_, .targetattr)]
        (.take ⟨rfl, ⟨rfl, by decide⟩⟩ (.take ⟨rfl, ⟨rfl, by decide⟩⟩ .nil))] at this
    have := this.1 (by intro r hr; exact List.mem_singleton.1 hr) _ (List.mem_cons_self ..)
    simp only [Rules.sampleRule, TRule.mk.injEq, TExpr.raw.injEq] at this
    revert this
    decide +kernel
  · intro h
    have := h true false .or [] [.other, .ctx (.rule (textRule BindDNS b!"1"))]
      [.ctx (.rule (textRule BindDNS b!"1")), .other] (List.Perm.swap _ _ _) (fun _ => false) (fun _ => true)
      (fun _ _ _ => rfl)
    revert this
    decide +kernel

end Verif.Order
