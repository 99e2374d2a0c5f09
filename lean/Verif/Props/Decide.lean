import Verif.Spec.Decide
import Verif.Props.ValuesRead
import Verif.Props.InsBack

/-!
# What an instruction that is read permits (C125)
-/

namespace Verif.Decide
open Verif Verif.Spec Verif.Bind Verif.Rules Verif.PB Verif.Ins

/-- **C125**, the full claim: an instruction that is read permits what its text permits. -/
def ReadingKeeps : Prop :=
  ∀ (F : EqualFold) (w : World) (P : Printer) (rd : Str → Option Store) (t : Ins.Tokens) (i : Instruction),
    Proper w.env F → w.text = P.text → (∀ x, some x ∈ t.rules → x.b.Known) → Ins.parse w rd t = .ok i →
    ∀ neg σ τ, AgreeB F σ τ → ∀ q, Permits neg τ q (pbrs i) ↔ TextPermits neg σ q t.rules

/-- **C125**, half of the claim: it permits nothing more. -/
def NothingMore : Prop :=
  ∀ (F : EqualFold) (w : World) (P : Printer) (rd : Str → Option Store) (t : Ins.Tokens) (i : Instruction),
    Proper w.env F → w.text = P.text → (∀ x, some x ∈ t.rules → x.b.Known) → Ins.parse w rd t = .ok i →
    ∀ neg σ τ, AgreeB F σ τ → ∀ q, Permits neg τ q (pbrs i) → TextPermits neg σ q t.rules

/-- **C125**, another part of the claim: what the text denies is denied. -/
def DenialsKept : Prop :=
  ∀ (F : EqualFold) (w : World) (P : Printer) (rd : Str → Option Store) (t : Ins.Tokens) (i : Instruction),
    Proper w.env F → w.text = P.text → (∀ x, some x ∈ t.rules → x.b.Known) → Ins.parse w rd t = .ok i →
    ∀ neg σ τ, AgreeB F σ τ → ∀ q, TextGives neg σ false q t.rules → Gives neg τ false q (pbrs i)

/-! ## What holds -/

theorem gives_of_says {F : EqualFold} {t : PB.Tokens} {r : Store} (h : Says F t r) {neg : List Bool → Bool}
    {σ τ : BRule → Bool} (ha : AgreeB F σ τ) (allow : Bool) (q : Priv) :
    Gives neg τ allow q [some r] ↔ TextGives neg σ allow q [some t] := by
  obtain ⟨⟨c, hp, hd, -, hq⟩, b, hb, he, -⟩ := h
  have hr : r = ⟨some c, some b⟩ := by cases r; simp_all
  subst hr
  constructor
  · rintro ⟨c', b', hm, h1, h2, h3⟩
    simp only [List.mem_singleton, Option.some.injEq, Store.mk.injEq] at hm
    obtain ⟨rfl, rfl⟩ := hm
    exact ⟨t, by simp, by rw [hd, h1], (hq q).1 h2, (he neg σ τ ha) ▸ h3⟩
  · rintro ⟨t', hm, h1, h2, h3⟩
    simp only [List.mem_singleton, Option.some.injEq] at hm
    subst hm
    exact ⟨c, b, by simp, by rw [hd] at h1; exact Option.some.inj h1, (hq q).2 h2, (he neg σ τ ha).trans h3⟩

theorem gives_mem {neg : List Bool → Bool} {τ : BRule → Bool} {allow : Bool} {q : Priv} {l : List PBRule} :
    Gives neg τ allow q l ↔ ∃ r, some r ∈ l ∧ Gives neg τ allow q [some r] := by
  constructor
  · rintro ⟨c, b, hm, h⟩
    exact ⟨_, hm, c, b, by simp, h⟩
  · rintro ⟨r, hm, c, b, h1, h⟩
    simp only [List.mem_singleton, Option.some.injEq] at h1
    subst h1
    exact ⟨c, b, hm, h⟩

theorem text_mem {neg : List Bool → Bool} {σ : BRule → Bool} {allow : Bool} {q : Priv} {ts : List (Option PB.Tokens)} :
    TextGives neg σ allow q ts ↔ ∃ t, some t ∈ ts ∧ TextGives neg σ allow q [some t] := by
  constructor
  · rintro ⟨t, hm, h⟩
    exact ⟨t, hm, t, by simp, h⟩
  · rintro ⟨t, hm, t', h1, h⟩
    simp only [List.mem_singleton, Option.some.injEq] at h1
    subst h1
    exact ⟨t', hm, h⟩

theorem readAll_mem {w : World} {ts : List (Option PB.Tokens)} {rs : List Store} (h : ReadAll w ts rs) :
    ∀ r ∈ rs, ∃ t, some t ∈ ts ∧ process w t = .ok r := by
  induction h with
  | nil => simp
  | skip _ ih =>
    intro r hr
    obtain ⟨t, h1, h2⟩ := ih r hr
    exact ⟨t, by simp [h1], h2⟩
  | @cons t ts r rs hp _ ih =>
    intro r' hr
    rcases List.mem_cons.1 hr with rfl | hr
    · exact ⟨t, by simp, hp⟩
    · obtain ⟨t', h1, h2⟩ := ih r' hr
      exact ⟨t', by simp [h1], h2⟩

theorem firsts_sublist {α : Type} (same : α → α → Bool) (l : List α) : (firsts same l).Sublist l := by
  induction l with
  | nil => exact List.Sublist.slnil
  | cons a l ih => exact List.Sublist.cons_cons a (List.filter_sublist.trans ih)

/-- **C125**, what holds of every text: the instruction allows and denies nothing that the text does not, once the
entries of each stack from its first unreadable condition on are cut off.  Missing: that nothing is cut off, and
that the rules behind an unreadable one are kept. -/
theorem C125_cut_partial (F : EqualFold) (w : World) (hP : Proper w.env F) (rd : Str → Option Store) (t : Ins.Tokens)
    (i : Instruction) (hk : ∀ x, some x ∈ t.rules → x.b.Known) (h : Ins.parse w rd t = .ok i)
    (ok : BRule → Bool) (hok : ∀ r, ok r = true ↔ ReadableB F r)
    (neg : List Bool → Bool) (σ τ : BRule → Bool) (ha : AgreeB F σ τ) (allow : Bool) (q : Priv)
    (hg : Gives neg τ allow q (pbrs i)) : TextGives neg σ allow q (cutText ok t.rules) := by
  have hl : ∃ p, processAll w rd t.rules = .ok p := by
    unfold Ins.parse at h
    cases hp : processAll w rd t.rules with
    | ok p => exact ⟨p, rfl⟩
    | err => rw [hp] at h; cases h
    | panic => rw [hp] at h; cases h
  obtain ⟨p, hp⟩ := hl
  obtain ⟨us, vs, rs, he, hr, hs, -⟩ := loop_ok t.rules [] hp
  obtain ⟨i', hi, -, hpb, -⟩ := parse_content w F hP.1 rd t us vs rs he hr hs
  rw [hi] at h
  cases h
  rw [hpb] at hg
  obtain ⟨r, hm, hg⟩ := gives_mem.1 hg
  have hm' := (firsts_sublist _ _).subset hm
  simp only [List.mem_map, Option.some.injEq, exists_eq_right] at hm'
  obtain ⟨x, hx, hpr⟩ := readAll_mem hr r hm'
  have hx' : some x ∈ t.rules := by rw [he]; exact List.mem_append_left _ hx
  have hs := C90_cut_partial F w hP x (hk x hx') r hpr ok hok
  refine text_mem.2 ⟨_, ?_, (gives_of_says hs ha allow q).1 hg⟩
  simp only [cutText, List.mem_map]
  exact ⟨some x, hx', rfl⟩

theorem saysAll_mem {F : EqualFold} {ts : List (Option PB.Tokens)} {rs : List Store} (h : SaysAll F ts rs) :
    (∀ r ∈ rs, ∃ t, some t ∈ ts ∧ Says F t r) ∧ (∀ t, some t ∈ ts → ∃ r ∈ rs, Says F t r) ∧
      rs.length = (ts.filterMap id).length := by
  induction h with
  | nil => simp
  | @skip ts rs _ ih =>
    obtain ⟨h1, h2, h3⟩ := ih
    refine ⟨fun r hr => ?_, fun t ht => h2 t (by simpa using ht), by simpa using h3⟩
    obtain ⟨t, ht, hs⟩ := h1 r hr
    exact ⟨t, by simp [ht], hs⟩
  | @cons t ts r rs hs _ ih =>
    obtain ⟨h1, h2, h3⟩ := ih
    refine ⟨fun r' hr => ?_, fun t' ht => ?_, by simpa using h3⟩
    · rcases List.mem_cons.1 hr with rfl | hr
      · exact ⟨t, by simp, hs⟩
      · obtain ⟨t', h4, h5⟩ := h1 r' hr
        exact ⟨t', by simp [h4], h5⟩
    · rcases List.mem_cons.1 ht with e | ht
      · cases e
        exact ⟨r, by simp, hs⟩
      · obtain ⟨r', h4, h5⟩ := h2 t' ht
        exact ⟨r', by simp [h4], h5⟩

/-- **C125** for texts that can be read: the instruction allows and denies nothing that the text does not; if it
has as many permission bind rules as the text, it allows, denies and permits exactly what the text does.  Missing:
texts that cannot be read, and permission bind rules dropped because another one is printed in the same way. -/
theorem C125_legible_partial (F : EqualFold) (w : World) (P : Printer) (hP : Proper w.env F) (ht : w.text = P.text)
    (rd : Str → Option Store) (t : Ins.Tokens) (i : Instruction) (hl : ∀ x, some x ∈ t.rules → Legible F x)
    (h : Ins.parse w rd t = .ok i) (neg : List Bool → Bool) (σ τ : BRule → Bool) (ha : AgreeB F σ τ) (q : Priv) :
    (∀ allow, Gives neg τ allow q (pbrs i) → TextGives neg σ allow q t.rules) ∧
    ((pbrs i).length = (t.rules.filterMap id).length →
      (∀ allow, Gives neg τ allow q (pbrs i) ↔ TextGives neg σ allow q t.rules) ∧
      (Permits neg τ q (pbrs i) ↔ TextPermits neg σ q t.rules)) := by
  obtain ⟨-, rs, hs, hpb⟩ := C53_front_partial w F P hP ht rd t t.rules [] (by simp) hl (.inl rfl) i h
  obtain ⟨h1, h2, h3⟩ := saysAll_mem hs
  have key : ∀ allow, Gives neg τ allow q (pbrs i) → TextGives neg σ allow q t.rules := by
    intro allow hg
    rw [hpb] at hg
    obtain ⟨r, hm, hg⟩ := gives_mem.1 hg
    have hm' := (firsts_sublist _ _).subset hm
    simp only [List.mem_map, Option.some.injEq, exists_eq_right] at hm'
    obtain ⟨x, hx, hsx⟩ := h1 r hm'
    exact text_mem.2 ⟨x, hx, (gives_of_says hsx ha allow q).1 hg⟩
  refine ⟨key, fun hlen => ?_⟩
  have hall : pbrs i = rs.map some := by
    rw [hpb]
    apply (firsts_sublist (sameText w) (rs.map some)).eq_of_length
    rw [← hpb, hlen, List.length_map, h3]
  have iff : ∀ allow, Gives neg τ allow q (pbrs i) ↔ TextGives neg σ allow q t.rules := by
    intro allow
    refine ⟨key allow, fun hg => ?_⟩
    obtain ⟨x, hx, hg⟩ := text_mem.1 hg
    obtain ⟨r, hr, hsx⟩ := h2 x hx
    rw [hall]
    exact gives_mem.2 ⟨r, List.mem_map_of_mem hr, (gives_of_says hsx ha allow q).2 hg⟩
  exact ⟨iff, by simp only [Permits, TextPermits, iff]⟩

example : Legible EqualFold.ref readable ∧ ∃ i, Ins.parse plainWorld (fun _ => none) ⟨b!"x", [], [some readable]⟩ = .ok i ∧
    (pbrs i).length = 1 := by
  obtain ⟨r, hr⟩ := readable_ok
  obtain ⟨i, hi, -, hpb, -⟩ := parse_content plainWorld .ref rfl (fun _ => none) ⟨b!"x", [], [some readable]⟩ [some readable] []
    [r] rfl (.cons hr .nil) (.inl rfl)
  exact ⟨readable_legible, i, hi, by rw [hpb]; rfl⟩

theorem inSum_grants (S : Shifty 16) (c : Rights.Cell) (q : Priv) :
    q.InSum c.bits.toNat ↔ Rights.grants S (some c) q = true := by
  rw [Rights.grants_cell, Rights.inSum_iff]
  exact Iff.rfl

theorem gives_along (S : Shifty 16) {l m : List PBRule} (h : Verif.Whole.Along (Back.SameP S) l m)
    {neg : List Bool → Bool} {τ : BRule → Bool} (hτ : ∀ r r', (r.core, r.ex) = (r'.core, r'.ex) → τ r = τ r')
    (allow : Bool) (q : Priv) : Gives neg τ allow q l ↔ Gives neg τ allow q m := by
  have split : ∀ (r : PBRule) (l : List PBRule), Gives neg τ allow q (r :: l) ↔
      Gives neg τ allow q [r] ∨ Gives neg τ allow q l := by
    intro r l
    simp only [Gives, List.mem_cons, List.not_mem_nil, or_false, or_and_right, exists_or]
  induction h with
  | nil => exact Iff.rfl
  | @cons a b l m hab _ ih =>
    rw [split a, split b]
    obtain ⟨p, b1, p', b2, rfl, rfl, h1, h2, -, h4⟩ := hab
    have hb := h4 neg τ hτ
    have : Gives neg τ allow q [some ⟨p, some b1⟩] ↔ Gives neg τ allow q [some ⟨p', some b2⟩] := by
      cases p with
      | none =>
        cases p' with
        | none => simp [Gives]
        | some c' => cases h1
      | some c =>
        cases p' with
        | none => cases h1
        | some c' =>
          have hd : c.disp = c'.disp := by simpa [Rights.stored] using h1
          have hq : q.InSum c.bits.toNat ↔ q.InSum c'.bits.toNat := by
            rw [inSum_grants S, inSum_grants S, h2 q]
          constructor
          · rintro ⟨x, y, hm, h5, h6, h7⟩
            simp only [List.mem_singleton, Option.some.injEq, Store.mk.injEq] at hm
            obtain ⟨rfl, rfl⟩ := hm
            exact ⟨c', b2, by simp, hd ▸ h5, hq.1 h6, hb ▸ h7⟩
          · rintro ⟨x, y, hm, h5, h6, h7⟩
            simp only [List.mem_singleton, Option.some.injEq, Store.mk.injEq] at hm
            obtain ⟨rfl, rfl⟩ := hm
            exact ⟨c, b1, by simp, hd ▸ h5, hq.2 h6, hb ▸ h7⟩
    exact or_congr this ih

/-- **C125** for the text that an instruction prints: however it is split, the instruction read from it permits
what the instruction does.  Missing: as for C100. -/
theorem C125_back_partial (F : EqualFold) (d : Oid.DotReader) (w : PB.World) (rd : Str → Option PB.Store)
    (P : Printing) (many : Bool → List Str → Str) (hP : Proper w.env F) (hd : w.dot = d.read)
    (hN : P.names.Perm Sec.authNames) (hw : Verif.Whole.Prints w (BExpr.texts P) many) (i : Ins.Body)
    (hi : Back.WholeI F d P w i) (t : Ins.Tokens) (ht : Back.SplitsI P many (Ins.string w (some i)) t) :
    ∃ i', Ins.parse w rd t = .ok i' ∧ ∀ neg τ, (∀ r r' : BRule, (r.core, r.ex) = (r'.core, r'.ex) → τ r = τ r') →
      ∀ q, (∀ allow, Gives neg τ allow q (pbrs i') ↔ Gives neg τ allow q i.pbrs) ∧
        (Permits neg τ q (pbrs i') ↔ Permits neg τ q i.pbrs) := by
  obtain ⟨i', h1, -, -, -, h5⟩ := Back.C100_back_partial F d w rd P many hP hd hN hw i hi t ht
  refine ⟨some i', h1, fun neg τ hτ q => ?_⟩
  have hg : ∀ allow, Gives neg τ allow q (pbrs (some i')) ↔ Gives neg τ allow q i.pbrs :=
    fun allow => gives_along w.S h5 hτ allow q
  exact ⟨hg, by simp only [Permits, hg]⟩

example : Back.WholeI .ref Oid.plainReader Back.plainPrinting Back.backWorld Back.sampleIns ∧
    ∃ t, Back.SplitsI Back.plainPrinting (fun _ _ => []) (Ins.string Back.backWorld (some Back.sampleIns)) t :=
  ⟨Back.sampleIns_whole,
    Back.C100_split _ _ Back.backWorld Back.plainPrinting _ Back.backWorld_prints Back.sampleIns Back.sampleIns_whole⟩

/-! ## What fails -/

theorem sample_agree : AgreeB .ref (Bind.readable plainEnv) (fun _ => true) :=
  fun r _ h => ((readable_iff plain_proper r).2 (readAsB_readable h)).symm

/-- **C125** fails: `allow(read) ssf >= "71" AND dayofweek = "xyz"` is read without an error, and then permits
reading whenever the first condition holds; of `allow(read) dayofweek = "xyz"; deny(all) ssf >= "71";` the denial
is lost. -/
theorem C125_counterexample : ¬ ReadingKeeps ∧ ¬ NothingMore ∧ ¬ DenialsKept := by
  have hno : ¬ NothingMore := by
    intro h
    obtain ⟨r', -, hp⟩ := sample_parse
    have hu := Rights.unpackage_eq plainWorld.S ⟨some true, [b!"read"]⟩
    have hpr : process plainWorld ⟨⟨some true, [b!"read"]⟩, sampleTree⟩ = .ok _ := process_iff.2 ⟨_, _, hu, hp, rfl⟩
    obtain ⟨i, hi, -, hpb, -⟩ := parse_content plainWorld .ref rfl (fun _ => none)
      ⟨b!"x", [], [some ⟨⟨some true, [b!"read"]⟩, sampleTree⟩]⟩ _ [] _ (by simp) (.cons hpr .nil) (.inl rfl)
    have := h .ref plainWorld plainPrinter (fun _ => none) _ i plain_proper rfl (by
      intro x hx
      simp only [List.mem_singleton, Option.some.injEq] at hx
      subst hx
      simp only [sampleTree, PTree.Known, PTree.AllKnown]; decide) hi (fun _ => true) _ _ sample_agree .read (by
      rw [hpb]
      refine ⟨⟨_, _, List.mem_cons_self .., rfl, ?_, ?_⟩, ?_⟩
      · decide +kernel
      · simp [BCtx.eval, BCtx.evals, Word.eval]
      · rintro ⟨c, b, hm, hd, -⟩
        simp only [List.map_cons, List.map_nil, firsts, List.filter_nil, List.mem_singleton, Option.some.injEq,
          Store.mk.injEq] at hm
        rw [hm.1] at hd
        cases hd)
    obtain ⟨⟨t, hm, -, -, he⟩, -⟩ := this
    simp only [List.mem_singleton, Option.some.injEq] at hm
    subst hm
    have hk : kindOf b!"AND" = some .and := by decide
    have h2 : Bind.readable plainEnv (rawRule b!"dayofweek" Eq' b!"xyz") = false := by
      simp [Bind.readable, sample_unread]
    simp [sampleTree, PTree.eval, PTree.evals, kindEval, hk, h2, Word.eval] at he
  refine ⟨fun h => hno fun F w P rd t i h1 h2 h3 h4 neg σ τ h5 q => (h F w P rd t i h1 h2 h3 h4 neg σ τ h5 q).1, hno,
    fun h => ?_⟩
  obtain ⟨i, hi, hpb⟩ := C53_counterexample.2 b!"x" []
  have := h .ref plainWorld plainPrinter (fun _ => none) _ i plain_proper rfl (by
      intro x hx
      simp only [sampleTokens, List.mem_cons, Option.some.injEq, List.not_mem_nil, or_false] at hx
      rcases hx with rfl | rfl <;> simp only [PTree.Known, PTree.AllKnown] <;> decide) hi (fun _ => true) _ _ sample_agree .read
    ⟨_, List.mem_cons_of_mem _ (List.mem_cons_self ..), rfl, ⟨b!"all", by simp, by decide +kernel⟩, by
      obtain ⟨r', hr, -, -⟩ := sample_read
      have hk : kindOf b!"AND" = some .and := by decide
      have h2 : Bind.readable plainEnv (rawRule b!"ssf" Ge' b!"71") = true := by
        unfold Reads at hr
        simp [Bind.readable, hr]
      simp [PTree.eval, PTree.evals, kindEval, hk, h2, Word.eval]⟩
  rw [hpb] at this
  obtain ⟨c, b, hm, -⟩ := this
  cases hm

end Verif.Decide
