import Verif.Props.Decide

/-!
# Whether permission bind rules that are pushed or read are in force (C125, C126)
-/

namespace Verif.InForce
open Verif Verif.Spec Verif.Bind Verif.PB Verif.Decide Verif.Whole

/-- **C126**, the full claim: a list of permission bind rules allows and denies exactly what the rules pushed onto
it do. What holds of a bind rule may depend on its keyword, its operator and the texts of its values. -/
def PushedInForce : Prop :=
  ∀ (w : World) (E : EqualFold) (val : BExpr → List Str) (many : Bool → List Str → Str), w.env.eq = E.eq →
    Prints w val many → ∀ (rd : Str → Option Store) (xs : List PArg) (rs : List PBRule), Picks (Offers rd) xs rs →
    ∀ neg (v : Str × Cop × List Str → Bool) allow q,
      Gives neg (fun r => v (r.asks val)) allow q (xs.foldl (fun es x => push w rd es [x]) []) ↔
        Gives neg (fun r => v (r.asks val)) allow q rs

/-- **C126**, the part that matters most: the list permits nothing that the rules do not. -/
def PermitsNoMore : Prop :=
  ∀ (w : World) (E : EqualFold) (val : BExpr → List Str) (many : Bool → List Str → Str), w.env.eq = E.eq →
    Prints w val many → ∀ (rd : Str → Option Store) (xs : List PArg) (rs : List PBRule), Picks (Offers rd) xs rs →
    ∀ neg (v : Str × Cop × List Str → Bool) q,
      Permits neg (fun r => v (r.asks val)) q (xs.foldl (fun es x => push w rd es [x]) []) →
        Permits neg (fun r => v (r.asks val)) q rs

/-! ## What holds -/

/-- **C126**, what holds of all rules: the list allows and denies nothing that the rules do not. Missing: that it
allows and denies all of it. -/
theorem C126_no_more_partial (w : World) (E : EqualFold) (hE : w.env.eq = E.eq) (rd : Str → Option Store)
    (xs : List PArg) (rs : List PBRule) (h : Picks (Offers rd) xs rs) (neg : List Bool → Bool) (τ : BRule → Bool)
    (allow : Bool) (q : Priv) (hg : Gives neg τ allow q (xs.foldl (fun es x => push w rd es [x]) [])) :
    Gives neg τ allow q rs := by
  rw [C49_content w E hE rd xs rs h] at hg
  obtain ⟨c, b, hm, h1⟩ := hg
  exact ⟨c, b, (firsts_sublist _ _).subset hm, h1⟩

theorem covers {α : Type} {same : α → α → Bool} (tr : ∀ a b c, same a b = true → same b c = true → same a c = true)
    {l : List α} {a : α} (h : a ∈ l) : ∃ b ∈ firsts same l, b = a ∨ same b a = true := by
  induction l with
  | nil => cases h
  | cons x l ih =>
    rcases List.mem_cons.1 h with rfl | h
    · exact ⟨a, by simp [firsts], .inl rfl⟩
    · obtain ⟨b, hb, hs⟩ := ih h
      cases hx : same x b with
      | false => exact ⟨b, by simp [firsts, hb, hx], hs⟩
      | true =>
        refine ⟨x, by simp [firsts], .inr ?_⟩
        rcases hs with rfl | hs
        · exact hx
        · exact tr _ _ _ hx hs

theorem gives_same {S : Shifty 16} {val : BExpr → List Str} {r r' : PBRule} (h : SameRule S val r r')
    (neg : List Bool → Bool) (v : Str × Cop × List Str → Bool) (allow : Bool) (q : Priv)
    (hg : Gives neg (fun r => v (r.asks val)) allow q [r']) : Gives neg (fun r => v (r.asks val)) allow q [r] := by
  obtain ⟨p, b, p', b', rfl, rfl, h1, h2, h3⟩ := h
  obtain ⟨c, x, hm, h4, h5, h6⟩ := hg
  simp only [List.mem_singleton, Option.some.injEq, Store.mk.injEq] at hm
  obtain ⟨rfl, rfl⟩ := hm
  cases p with
  | none => cases h1
  | some c' =>
    have hd : c'.disp = c.disp := by simpa [Rights.stored] using h1
    refine ⟨c', b, by simp, hd.trans h4, ?_, (h3 neg v).trans h6⟩
    rw [inSum_grants S, h2 q, ← inSum_grants S]
    exact h5

theorem gives_firsts {w : World} {E : EqualFold} {val : BExpr → List Str} {many : Bool → List Str → Str}
    (hE : w.env.eq = E.eq) (hw : Prints w val many) {rs : List PBRule}
    (hs : ∀ r ∈ rs, ∃ p b, r = some ⟨p, some b⟩ ∧ RuleShown val p b)
    (hc : ∀ r ∈ rs, ∀ r' ∈ rs, sameText w r r' = true → string w r = string w r') (neg : List Bool → Bool)
    (v : Str × Cop × List Str → Bool) (q : Priv) (allow : Bool)
    (hg : Gives neg (fun r => v (r.asks val)) allow q rs) :
    Gives neg (fun r => v (r.asks val)) allow q (firsts (sameText w) rs) := by
  obtain ⟨c, b, hm, h1⟩ := hg
  obtain ⟨r, hr, he⟩ := covers (same := sameText w) (fun a b c h1 h2 => by
    simp only [sameText, hE] at *; exact E.trans _ _ _ h1 h2) hm
  rcases he with rfl | he
  · exact ⟨c, b, hr, h1⟩
  · have hr' := (firsts_sublist _ _).subset hr
    have ht := hc _ hr' _ hm he
    obtain ⟨p1, b1, rfl, s1⟩ := hs _ hr'
    obtain ⟨p2, b2, e2, s2⟩ := hs _ hm
    rw [e2] at ht hm
    obtain ⟨hsame, -⟩ := rule_ends hw s1 s2 [] [] (by simpa using ht)
    have := gives_same hsame neg v allow q (by
      simp only [Option.some.injEq, Store.mk.injEq] at e2
      exact ⟨c, b, by simp [← e2.1, ← e2.2], h1⟩)
    obtain ⟨c', b', hm', h2⟩ := this
    rw [List.mem_singleton] at hm'
    exact ⟨c', b', hm' ▸ hr, h2⟩

/-- **C126** for rules whose text shows what they mean, no two of which have texts that differ in the case of
letters alone: the list allows, denies and permits exactly what the rules do. Missing: rules whose text does not
show how they belong together, and texts that differ in case. -/
theorem C126_shown_partial (w : World) (E : EqualFold) (val : BExpr → List Str) (many : Bool → List Str → Str)
    (hE : w.env.eq = E.eq) (hw : Prints w val many) (rd : Str → Option Store) (xs : List PArg) (rs : List PBRule)
    (h : Picks (Offers rd) xs rs) (hs : ∀ r ∈ rs, ∃ p b, r = some ⟨p, some b⟩ ∧ RuleShown val p b)
    (hc : ∀ r ∈ rs, ∀ r' ∈ rs, sameText w r r' = true → string w r = string w r') (neg : List Bool → Bool)
    (v : Str × Cop × List Str → Bool) (q : Priv) :
    (∀ allow, Gives neg (fun r => v (r.asks val)) allow q (xs.foldl (fun es x => push w rd es [x]) []) ↔
        Gives neg (fun r => v (r.asks val)) allow q rs) ∧
    (Permits neg (fun r => v (r.asks val)) q (xs.foldl (fun es x => push w rd es [x]) []) ↔
        Permits neg (fun r => v (r.asks val)) q rs) := by
  have iff : ∀ allow, Gives neg (fun r => v (r.asks val)) allow q (xs.foldl (fun es x => push w rd es [x]) []) ↔
      Gives neg (fun r => v (r.asks val)) allow q rs := fun allow =>
    ⟨C126_no_more_partial w E hE rd xs rs h neg _ allow q, fun hg => by
      rw [C49_content w E hE rd xs rs h]; exact gives_firsts hE hw hs hc neg v q allow hg⟩
  exact ⟨iff, by simp only [Permits, iff]⟩

/-- **C126** for instructions, in the same cases: however the rules were given to an instruction, by `ACI` or by calls
of `Set`, one by one or in lists, it allows, denies and permits exactly what they do; in all cases it allows and
denies nothing more. Missing: as before. -/
theorem C126_instruction_partial (w : World) (E : EqualFold) (val : BExpr → List Str) (many : Bool → List Str → Str)
    (hE : w.env.eq = E.eq) (rd : Str → Option Store) (i : Ins.Instruction) (xs : List Ins.SetArg)
    (h : Ins.Made w rd i xs) (rs : List PBRule) (hp : Picks Ins.Whole (xs.flatMap Ins.SetArg.rules) rs)
    (neg : List Bool → Bool) (q : Priv) :
    (∀ τ allow, Gives neg τ allow q (Ins.pbrs i) → Gives neg τ allow q rs) ∧
    (Prints w val many → (∀ r ∈ rs, ∃ p b, r = some ⟨p, some b⟩ ∧ RuleShown val p b) →
      (∀ r ∈ rs, ∀ r' ∈ rs, sameText w r r' = true → string w r = string w r') →
      ∀ v : Str × Cop × List Str → Bool,
        (∀ allow, Gives neg (fun r => v (r.asks val)) allow q (Ins.pbrs i) ↔
          Gives neg (fun r => v (r.asks val)) allow q rs) ∧
        (Permits neg (fun r => v (r.asks val)) q (Ins.pbrs i) ↔ Permits neg (fun r => v (r.asks val)) q rs)) := by
  rw [Ins.C51_rules w E hE rd i xs h rs hp]
  have key : ∀ τ allow, Gives neg τ allow q (firsts (sameText w) rs) → Gives neg τ allow q rs := by
    rintro τ allow ⟨c, b, hm, h1⟩
    exact ⟨c, b, (firsts_sublist _ _).subset hm, h1⟩
  refine ⟨key, fun hw hs hc v => ?_⟩
  have iff : ∀ allow, Gives neg (fun r => v (r.asks val)) allow q (firsts (sameText w) rs) ↔
      Gives neg (fun r => v (r.asks val)) allow q rs := fun allow =>
    ⟨key _ allow, gives_firsts hE hw hs hc neg v q allow⟩
  exact ⟨iff, by simp only [Permits, iff]⟩

example : Picks (Offers fun _ => none) [.rule readRule, .nil, .rule writeRule, .rule readRule]
      [readRule, writeRule, readRule] ∧
    (∀ r ∈ [readRule, writeRule, readRule], ∃ p b, r = some ⟨p, some b⟩ ∧ RuleShown textVal p b) ∧
    (∀ r ∈ [readRule, writeRule, readRule], ∀ r' ∈ [readRule, writeRule, readRule],
      sameText textWorld r r' = true → string textWorld r = string textWorld r') := by
  have c1 : Complete readRule := ⟨_, _, rfl⟩
  have c2 : Complete writeRule := ⟨_, _, rfl⟩
  have hs : ∀ n : BitVec 16, Rights.valid (some ⟨true, n⟩) = true ∧ Rights.WithinTen (some ⟨true, n⟩) →
      RuleShown textVal (some ⟨true, n⟩) (.rule (textRule BindSSF b!"1")) := by
    intro n hn
    refine ⟨hn, textRule_valid.1, by simp [BCtx.Clear], ?_⟩
    intro r hr
    simp only [BCtx.leaves, List.mem_singleton] at hr
    subst hr
    exact textRule_shown .ssf b!"1" (by decide)
  refine ⟨.take ⟨c1, .inl rfl⟩ (.skip ?_ (.take ⟨c2, .inl rfl⟩ (.take ⟨c1, .inl rfl⟩ .nil))), ?_, ?_⟩
  · rintro e ⟨-, h | ⟨s, st, h, -⟩⟩ <;> cases h
  · intro r hr
    simp only [List.mem_cons, List.not_mem_nil, or_false] at hr
    rcases hr with rfl | rfl | rfl
    · exact ⟨_, _, rfl, hs 1#16 ⟨by decide +kernel, by simp [Rights.WithinTen]⟩⟩
    · exact ⟨_, _, rfl, hs 2#16 ⟨by decide +kernel, by simp [Rights.WithinTen]⟩⟩
    · exact ⟨_, _, rfl, hs 1#16 ⟨by decide +kernel, by simp [Rights.WithinTen]⟩⟩
  · decide +kernel

example : ∃ i, Ins.Made textWorld (fun _ => none) i [.str b!"x", .pbr readRule, .pbrs [writeRule, readRule]] ∧
    Picks Ins.Whole ([Ins.SetArg.str b!"x", .pbr readRule, .pbrs [writeRule, readRule]].flatMap Ins.SetArg.rules)
      [readRule, writeRule, readRule] :=
  ⟨_, .zero [.str b!"x", .pbr readRule] [[.pbrs [writeRule, readRule]]],
    .take ⟨rfl, _, _, rfl⟩ (.take ⟨rfl, _, _, rfl⟩ (.take ⟨rfl, _, _, rfl⟩ .nil))⟩

/-! ## What fails -/

/-- A denial with the bind rule `And(a, Or(b, c))`, printed `a AND b OR c`. -/
def denyFirst : PBRule := some ⟨some ⟨false, 1#16⟩, some (.rules .and false [.rule (textRule BindSSF b!"1"),
  .rules .or false [.rule (textRule BindIP b!"1"), .rule (textRule BindDNS b!"1")]])⟩

/-- A denial with the bind rule `Or(And(a, b), c)`, printed `a AND b OR c`. -/
def denySecond : PBRule := some ⟨some ⟨false, 1#16⟩, some (.rules .or false
  [.rules .and false [.rule (textRule BindSSF b!"1"), .rule (textRule BindIP b!"1")], .rule (textRule BindDNS b!"1")])⟩

/-- A permission bound to `c`. -/
def allowThird : PBRule := some ⟨some ⟨true, 1#16⟩, some (.rule (textRule BindDNS b!"1"))⟩

/-- Of the three conditions `c` holds alone. -/
def onlyDNS (a : Str × Cop × List Str) : Bool := a == (textRule BindDNS b!"1").asks textVal

/-- **C126** fails: after a denial with `And(a, Or(b, c))` the denial with `Or(And(a, b), c)` is taken for the same
and is not pushed; where `c` holds alone, the list permits what the second denial forbids. -/
theorem C126_counterexample : ¬ PushedInForce ∧ ¬ PermitsNoMore := by
  have hp : Picks (Offers fun _ => none) [.rule allowThird, .rule denyFirst, .rule denySecond]
      [allowThird, denyFirst, denySecond] := by
    refine .take ⟨?_, .inl rfl⟩ (.take ⟨?_, .inl rfl⟩ (.take ⟨?_, .inl rfl⟩ .nil)) <;>
      exact ⟨_, _, rfl⟩
  have hl : [PArg.rule allowThird, .rule denyFirst, .rule denySecond].foldl
      (fun es x => push textWorld (fun _ => none) es [x]) [] = [allowThird, denyFirst] := by
    rw [C49_content textWorld .ref rfl _ _ _ hp]
    rfl
  have hlost : Gives (fun _ => false) (fun r => onlyDNS (r.asks textVal)) false .read [allowThird, denyFirst, denySecond] :=
    ⟨_, _, by simp [denySecond]; exact .inr (.inr ⟨rfl, rfl⟩), rfl, by decide +kernel, by decide +kernel⟩
  have hnot : ¬ Gives (fun _ => false) (fun r => onlyDNS (r.asks textVal)) false .read [allowThird, denyFirst] := by
    rintro ⟨c, b, hm, hd, -, he⟩
    simp only [List.mem_cons, List.not_mem_nil, or_false, allowThird, denyFirst, Option.some.injEq, Store.mk.injEq] at hm
    rcases hm with ⟨rfl, rfl⟩ | ⟨rfl, rfl⟩
    · cases hd
    · revert he; decide +kernel
  have hyes : Gives (fun _ => false) (fun r => onlyDNS (r.asks textVal)) true .read [allowThird, denyFirst] :=
    ⟨_, _, List.mem_cons_self .., rfl, by decide +kernel, by decide +kernel⟩
  constructor
  · intro h
    have := h textWorld .ref textVal _ rfl textWorld_prints _ _ _ hp (fun _ => false) onlyDNS false .read
    rw [hl] at this
    exact hnot (this.2 hlost)
  · intro h
    have := h textWorld .ref textVal _ rfl textWorld_prints _ _ _ hp (fun _ => false) onlyDNS .read
    rw [hl] at this
    exact (this ⟨hyes, hnot⟩).2 hlost

/-- `deny(read) userattr = "…"`. -/
def denyAttr (s : Str) : PBRule := some ⟨some ⟨false, 1#16⟩, some (.rule (textRule BindUAT s))⟩

/-- **C126** fails as well for rules whose text shows what they mean: of two denials with the values `nick#bob` and
`nick#Bob` the second is not pushed, so that where its condition holds alone nothing is denied. -/
theorem C126_case_counterexample : (∀ r ∈ [denyAttr b!"nick#bob", denyAttr b!"nick#Bob"], ∃ p b, r = some ⟨p, some b⟩ ∧
      RuleShown textVal p b) ∧
    ∃ v : Str × Cop × List Str → Bool,
      Gives (fun _ => false) (fun r => v (r.asks textVal)) false .read [denyAttr b!"nick#bob", denyAttr b!"nick#Bob"] ∧
      ¬ Gives (fun _ => false) (fun r => v (r.asks textVal)) false .read
        ([PArg.rule (denyAttr b!"nick#bob"), .rule (denyAttr b!"nick#Bob")].foldl
          (fun es x => push textWorld (fun _ => none) es [x]) []) := by
  refine ⟨?_, fun a => a == (textRule BindUAT b!"nick#Bob").asks textVal,
    ⟨_, _, List.mem_cons_of_mem _ (List.mem_cons_self ..), rfl, by decide +kernel, by decide +kernel⟩, ?_⟩
  · intro r hr
    simp only [List.mem_cons, List.not_mem_nil, or_false] at hr
    have hs : ∀ s, (34 : Byte) ∉ s → (textRule BindUAT s).valid = true →
        RuleShown textVal (some ⟨false, 1#16⟩) (.rule (textRule BindUAT s)) := by
      intro s h1 h2
      refine ⟨⟨by decide +kernel, by simp [Rights.WithinTen]⟩, h2, by simp [BCtx.Clear], ?_⟩
      intro r hr
      simp only [BCtx.leaves, List.mem_singleton] at hr
      subst hr
      exact textRule_shown .userattr s h1
    rcases hr with rfl | rfl
    · exact ⟨_, _, rfl, hs _ (by decide) (by decide +kernel)⟩
    · exact ⟨_, _, rfl, hs _ (by decide) (by decide +kernel)⟩
  · rw [C49_content textWorld .ref rfl _ _ [denyAttr b!"nick#bob", denyAttr b!"nick#Bob"]
      (.take ⟨⟨_, _, rfl⟩, .inl rfl⟩ (.take ⟨⟨_, _, rfl⟩, .inl rfl⟩ .nil))]
    have : firsts (sameText textWorld) [denyAttr b!"nick#bob", denyAttr b!"nick#Bob"] = [denyAttr b!"nick#bob"] := rfl
    rw [this]
    rintro ⟨c, b, hm, -, -, he⟩
    simp only [List.mem_singleton, denyAttr, Option.some.injEq, Store.mk.injEq] at hm
    obtain ⟨rfl, rfl⟩ := hm
    revert he; decide +kernel

/-! ## Instructions that are read (C125) -/

/-- **C125** for texts that can be read as rules whose text shows what they mean, no two of which are printed with
texts that differ in the case of letters alone: the instruction allows, denies and permits exactly what the text
does, also where permission bind rules are dropped because another one is printed in the same way. Missing: all
other texts. -/
theorem C125_shown_partial (F : EqualFold) (w : World) (P : Printer) (hP : Proper w.env F) (ht : w.text = P.text)
    (val : BExpr → List Str) (many : Bool → List Str → Str) (hw : Prints w val many)
    (rd : Str → Option Store) (t : Ins.Tokens) (i : Ins.Instruction) (hl : ∀ x, some x ∈ t.rules → Legible F x)
    (hs : ∀ x, some x ∈ t.rules → ∀ r, process w x = .ok r → ∃ p b, r = ⟨p, some b⟩ ∧ RuleShown val p b)
    (hc : ∀ x, some x ∈ t.rules → ∀ y, some y ∈ t.rules → ∀ r r', process w x = .ok r → process w y = .ok r' →
      F.eq (string w (some r)) (string w (some r')) = true → string w (some r) = string w (some r'))
    (h : Ins.parse w rd t = .ok i) (neg : List Bool → Bool) (σ : BRule → Bool) (v : Str × Cop × List Str → Bool)
    (ha : AgreeB F σ fun r => v (r.asks val)) (q : Priv) :
    (∀ allow, Gives neg (fun r => v (r.asks val)) allow q (Ins.pbrs i) ↔ TextGives neg σ allow q t.rules) ∧
    (Permits neg (fun r => v (r.asks val)) q (Ins.pbrs i) ↔ TextPermits neg σ q t.rules) := by
  obtain ⟨rs, hra, hsa, -⟩ := Ins.says_all hP ht t.rules hl
  obtain ⟨i₀, hi, -, hpb, -⟩ := Ins.parse_content w F hP.1 rd t t.rules [] rs (by simp) hra (.inl rfl)
  rw [hi] at h
  obtain rfl : i₀ = i := by injection h
  obtain ⟨-, h2, -⟩ := saysAll_mem hsa
  have iff : ∀ allow, Gives neg (fun r => v (r.asks val)) allow q (Ins.pbrs i₀) ↔ TextGives neg σ allow q t.rules := by
    intro allow
    refine ⟨(C125_legible_partial F w P hP ht rd t i₀ hl hi neg σ _ ha q).1 allow, fun hg => ?_⟩
    obtain ⟨x, hx, hg⟩ := text_mem.1 hg
    obtain ⟨r, hr, hsx⟩ := h2 x hx
    rw [hpb]
    refine gives_firsts hP.1 hw ?_ ?_ neg v q allow
      (gives_mem.2 ⟨r, List.mem_map_of_mem hr, (gives_of_says hsx ha allow q).2 hg⟩)
    · intro r hr
      obtain ⟨r, hr₀, rfl⟩ := List.mem_map.1 hr
      obtain ⟨x, hx, hp⟩ := readAll_mem hra r hr₀
      obtain ⟨p, b, rfl, hb⟩ := hs x hx r hp
      exact ⟨p, b, rfl, hb⟩
    · intro r hr r' hr' he
      obtain ⟨r, hr₀, rfl⟩ := List.mem_map.1 hr
      obtain ⟨r', hr₁, rfl⟩ := List.mem_map.1 hr'
      obtain ⟨x, hx, hp⟩ := readAll_mem hra r hr₀
      obtain ⟨y, hy, hq⟩ := readAll_mem hra r' hr₁
      refine hc x hx y hy r r' hp hq ?_
      simpa only [sameText, hP.1] using he
  exact ⟨iff, by simp only [Permits, TextPermits, iff]⟩


/-- NOT stacks with several entries are printed as their entries. -/
def listMany (_ : Bool) (ts : List Str) : Str := Str.join b!" " ts

theorem join_some {sep : Str} {l : List Str} (h : l ≠ []) (hl : ∀ s ∈ l, s ≠ []) : Str.join sep l ≠ [] := by
  cases l with
  | nil => exact absurd rfl h
  | cons a l =>
    have := hl a (by simp)
    cases l <;> simp [Str.join, this]

/-- The printer of the sample. -/
def listPrinter : Printer where
  text := BCtx.text (BExpr.texts Back.plainPrinting) listMany
  rule := by
    intro r h
    have h0 : r.isZero = false := by
      cases hz : r.isZero with
      | false => rfl
      | true => simp_all [BRule.valid, BRule.isZero]
    simp only [BCtx.text, BRule.text, h0, wrapIf, BRule.bare]
    cases r.paren <;> simp
  some_entry := by
    intro w p es e he ht
    have ne : ∀ es : List BCtx, ∀ s ∈ BCtx.texts (BExpr.texts Back.plainPrinting) listMany es, s ≠ [] := by
      intro es
      induction es with
      | nil => simp [BCtx.texts]
      | cons e es ih =>
        intro s hs
        simp only [BCtx.texts] at hs
        split at hs
        · exact ih s hs
        · rcases List.mem_cons.1 hs with rfl | hs
          · assumption
          · exact ih s hs
    have some : ∀ es : List BCtx, e ∈ es → BCtx.texts (BExpr.texts Back.plainPrinting) listMany es ≠ [] := by
      intro es he
      induction es with
      | nil => cases he
      | cons e' es ih =>
        simp only [BCtx.texts]
        rcases List.mem_cons.1 he with rfl | he
        · simp [ht]
        · split
          · exact ih he
          · simp
    have h1 := ne es
    have h2 := some es he
    simp only [BCtx.text]
    generalize BCtx.texts (BExpr.texts Back.plainPrinting) listMany es = ts at h1 h2
    cases ts with
    | nil => exact absurd rfl h2
    | cons t ts =>
      have hj := fun sep => join_some (sep := sep) h2 h1
      cases w with
      | and => simp only [stackText, wrapIf]; split <;> simp [hj]
      | or => simp only [stackText, wrapIf]; split <;> simp [hj]
      | not => cases ts <;> simp [stackText, listMany, hj]
  no_entry := by intro w p; cases w <;> rfl
  zero := rfl

/-- The world of the sample. -/
def listWorld : World := { Back.backWorld with text := listPrinter.text }

theorem listWorld_prints : Prints listWorld (BExpr.texts Back.plainPrinting) listMany := ⟨fun _ => rfl, fun _ => rfl⟩

/-- `deny(read) userattr = "…"` as the parser returns it. -/
def denyText (s : Str) : Tokens := ⟨⟨some false, [b!"read"]⟩, .stack b!"AND" false [.cond (rawRule b!"userattr" Eq' s)]⟩

def twoDenials : Ins.Tokens := ⟨b!"x", [], [some (denyText b!"nick#bob"), some (denyText b!"nick#Bob")]⟩

/-- **C125**, the claim for texts that can be read: what they deny is denied. -/
def LegibleDenialsKept : Prop :=
  ∀ (F : EqualFold) (w : World) (P : Printer) (rd : Str → Option Store) (t : Ins.Tokens) (i : Ins.Instruction),
    Proper w.env F → w.text = P.text → (∀ x, some x ∈ t.rules → Legible F x) → Ins.parse w rd t = .ok i →
    ∀ neg σ τ, AgreeB F σ τ → ∀ q, TextGives neg σ false q t.rules → Gives neg τ false q (Ins.pbrs i)

theorem agree_some {F : EqualFold} {env : Env} (hP : Proper env F) {τ : BRule → Bool}
    (hτ : ∀ r r' : BRule, (r.core, r.ex) = (r'.core, r'.ex) → τ r = τ r') : ∃ σ, AgreeB F σ τ := by
  classical
  refine ⟨fun q => if h : ∃ r', ReadAsB F q r' then τ h.choose else false, ?_⟩
  intro q r' hr
  have h : ∃ r', ReadAsB F q r' := ⟨r', hr⟩
  simp only [dif_pos h]
  obtain ⟨k1, s1, v1, hr1, hx1, hc1, -⟩ := hr
  obtain ⟨k2, s2, v2, hr2, hx2, hc2, -⟩ := h.choose_spec
  exact hτ _ _ (by rw [hc1, hc2, Back.value_unique hP hr1 hr2 hx1 hx2])

/-- The condition is true where the person is `Bob`, with a capital letter. -/
def isBob (r : BRule) : Bool := Str.join b!" || " (BExpr.texts Back.plainPrinting r.ex) == b!"nick#Bob"

theorem nick_read (s : Str) (h : s = b!"nick#bob" ∨ s = b!"nick#Bob") :
    ∃ r' a, Reads plainEnv (rawRule b!"userattr" Eq' s) r' ∧ r'.ex = .pair a ∧ a.string = some s ∧
      isBob r' = (s == b!"nick#Bob") := by
  have key : (match (rawRule b!"userattr" Eq' s).assertValue plainEnv with
      | .ok r' => (match r'.ex with | .pair a => a.string == some s && isBob r' == (s == b!"nick#Bob") | _ => false)
      | _ => false) = true := by
    rcases h with rfl | rfl <;> decide +kernel
  cases hr : (rawRule b!"userattr" Eq' s).assertValue plainEnv with
  | err => rw [hr] at key; cases key
  | panic => rw [hr] at key; cases key
  | ok r' =>
    rw [hr] at key
    cases he : r'.ex with
    | pair a =>
      simp only [he, Bool.and_eq_true, beq_iff_eq] at key
      exact ⟨r', a, hr, he, key⟩
    | _ => simp [he] at key

theorem denyText_legible (s : Str) (h : s = b!"nick#bob" ∨ s = b!"nick#Bob") : Legible .ref (denyText s) := by
  refine ⟨by simp [denyText], ⟨_, _, _, rfl⟩, ?_, ?_, ?_⟩
  · simp only [denyText, PTree.Known, PTree.AllKnown]; decide
  · simp [denyText, PTree.Filled, PTree.AllFilled]
  · intro r hr
    simp only [denyText, PTree.conds, PTree.condsAll, List.mem_singleton, List.append_nil] at hr
    subst hr
    obtain ⟨r₀, a₀, h1, h2, h3, -⟩ := nick_read s h
    refine (good_iff plain_proper _).1 ⟨readable_of h1, rfl, by show Eq' ≠ 0; decide, ?_⟩
    intro r' a h4 h5
    have : r₀ = r' := by
      unfold Reads at h1 h4
      rw [h1] at h4
      injection h4
    subst this
    rw [h2] at h5
    cases h5
    simp [h3]

/-- **C125** fails also for texts that can be read: of `deny(read) userattr = "nick#bob"; deny(read) userattr =
"nick#Bob";` the second denial is taken for the first and dropped. -/
theorem C125_case_counterexample : ¬ LegibleDenialsKept := by
  intro h
  obtain ⟨σ, hσ⟩ := agree_some (F := .ref) plain_proper (τ := isBob) (by
    intro r r' e
    simp only [Prod.mk.injEq] at e
    simp [isBob, e.2])
  have lost : (match Ins.parse listWorld (fun _ => none) twoDenials with
      | .ok i => (Ins.pbrs i).all fun e => match e with
        | some ⟨some _, some b⟩ => !(b.eval (fun _ => false) isBob)
        | _ => true
      | _ => false) = true := by decide +kernel
  cases hi : Ins.parse listWorld (fun _ => none) twoDenials with
  | err => rw [hi] at lost; cases lost
  | panic => rw [hi] at lost; cases lost
  | ok i =>
    rw [hi] at lost
    have := h .ref listWorld listPrinter (fun _ => none) twoDenials i plain_proper rfl (by
      intro x hx
      simp only [twoDenials, List.mem_cons, Option.some.injEq, List.not_mem_nil, or_false] at hx
      rcases hx with rfl | rfl
      · exact denyText_legible _ (.inl rfl)
      · exact denyText_legible _ (.inr rfl)) hi (fun _ => false) σ isBob hσ .read
      ⟨denyText b!"nick#Bob", by simp [twoDenials], rfl, ⟨b!"read", by simp [denyText], by decide +kernel⟩, by
        obtain ⟨r', -, h1, -, -, h2⟩ := nick_read b!"nick#Bob" (.inr rfl)
        have h3 := hσ _ _ (reads_as plain_proper h1)
        have hk : kindOf b!"AND" = some .and := by decide
        have h4 : σ (rawRule b!"userattr" Eq' b!"nick#Bob") = true := by rw [← h3, h2]; decide
        simp [denyText, PTree.eval, PTree.evals, kindEval, hk, h4, Word.eval]⟩
    obtain ⟨c, b, hm, -, -, he⟩ := this
    have := List.all_eq_true.1 lost _ hm
    simp [he] at this

theorem denial_read : ∃ r : BRule, process listWorld (denyText b!"nick#bob") =
      .ok ⟨some ⟨false, 1#16⟩, some (.rules .and false [.rule r])⟩ ∧ r.valid = true ∧
      Shown (BExpr.texts Back.plainPrinting) r := by
  have key : (match process listWorld (denyText b!"nick#bob") with
      | .ok ⟨some ⟨d, n⟩, some (.rules .and false [.rule r])⟩ =>
        !d && n == 1#16 && r.core.kw == b!"userattr" && r.core.op == Eq' && r.valid &&
          BExpr.texts Back.plainPrinting r.ex == [b!"nick#bob"] && r.outer && !r.slice
      | _ => false) = true := by decide +kernel
  split at key
  · rename_i d n r hr
    simp only [Bool.and_eq_true, Bool.not_eq_true', beq_iff_eq] at key
    obtain ⟨⟨⟨⟨⟨⟨⟨rfl, rfl⟩, h3⟩, h4⟩, h5⟩, h6⟩, h7⟩, h8⟩ := key
    refine ⟨r, hr, h5, ⟨.userattr, h3⟩, by rw [h4]; decide, by rw [h6]; simp, ?_, by rw [h7, h8]; rfl⟩
    rw [h6]
    decide
  · cases key

example : (∀ x, some x ∈ [some (denyText b!"nick#bob"), none, some (denyText b!"nick#bob")] → Legible .ref x) ∧
    (∀ x, some x ∈ [some (denyText b!"nick#bob"), none, some (denyText b!"nick#bob")] → ∀ r,
      process listWorld x = .ok r → ∃ p b, r = ⟨p, some b⟩ ∧ RuleShown (BExpr.texts Back.plainPrinting) p b) ∧
    (∃ i, Ins.parse listWorld (fun _ => none)
        ⟨b!"x", [], [some (denyText b!"nick#bob"), none, some (denyText b!"nick#bob")]⟩ = .ok i ∧
      (Ins.pbrs i).length = 1) ∧
    ∃ σ, AgreeB .ref σ fun r => (r.asks (BExpr.texts Back.plainPrinting)).1 == b!"userattr" := by
  have hx : ∀ x, some x ∈ [some (denyText b!"nick#bob"), none, some (denyText b!"nick#bob")] →
      x = denyText b!"nick#bob" := by
    intro x hx
    simp only [List.mem_cons, Option.some.injEq, List.not_mem_nil, or_false, reduceCtorEq, false_or] at hx
    rcases hx with rfl | rfl <;> rfl
  refine ⟨fun x h => hx x h ▸ denyText_legible _ (.inl rfl), fun x h r hr => ?_, ?_,
    agree_some plain_proper fun r r' e => ?_⟩
  · obtain ⟨r', h1, h2, h3⟩ := denial_read
    rw [hx x h, h1] at hr
    cases hr
    refine ⟨_, _, rfl, ⟨by decide +kernel, by simp [Rights.WithinTen]⟩, ?_, ?_, ?_⟩
    · simp [BCtx.Sound, BCtx.AllSound, h2]
    · simp [BCtx.Clear, BCtx.AllClear]
    · intro q hq
      simp only [BCtx.leaves, BCtx.leavesAll, List.append_nil, List.mem_singleton] at hq
      exact hq ▸ h3
  · have key : (match Ins.parse listWorld (fun _ => none)
        ⟨b!"x", [], [some (denyText b!"nick#bob"), none, some (denyText b!"nick#bob")]⟩ with
      | .ok i => (Ins.pbrs i).length == 1
      | _ => false) = true := by decide +kernel
    split at key
    · rename_i i hi
      exact ⟨i, hi, by simpa using key⟩
    · cases key
  · simp only [Prod.mk.injEq] at e
    simp [BRule.asks, e.1]

end Verif.InForce
