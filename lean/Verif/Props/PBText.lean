import Verif.Spec.PBText
import Verif.Props.PB
import Verif.Props.BindValues

/-!
# C90: a permission bind rule that is read says what its text says
-/

namespace Verif.PB
open Verif Verif.Spec Verif.Bind Verif.Levels

theorem process_iff {w : World} {t : Tokens} {r : Store} :
    process w t = .ok r ↔ ∃ c b, Rights.unpackage w.S t.p = .ok c ∧ parseBindRules w.env w.text t.b = .ok b ∧
      r = ⟨some c, some b⟩ := by
  unfold process parseBindRules
  cases hu : Rights.unpackage w.S t.p with
  | error e => simp
  | ok c =>
    cases hc : convert w.env w.text t.b with
    | panic => simp [withBind]
    | err => simp [withBind]
    | ok x =>
      obtain ⟨b, ok⟩ := x
      cases ok <;> simp [withBind, eq_comm]

theorem union_lt (l : List Str) : (Rights.union l).toNat < 1024 := by
  have : ∀ (l : List Str) (v : BitVec 16), v.toNat < 1024 → (l.foldl Rights.addName v).toNat < 1024 := by
    intro l
    induction l with
    | nil => exact fun _ h => h
    | cons n l ih =>
      intro v hv
      rw [List.foldl_cons]
      refine ih _ ?_
      unfold Rights.addName
      cases hn : Rights.rightsNames n with
      | none => exact hv
      | some r => exact Rights.or_lt hv (Rights.table_hi _ (Rights.rightsNames_eq_some hn))
  exact this l 0#16 (by decide)

theorem rights_read {S : Shifty 16} {t : Rights.Tokens} {c : Rights.Cell} (h : Rights.unpackage S t = .ok c) :
    SaysRights t (some c) := by
  rw [Rights.unpackage_eq] at h
  cases ha : t.allow with
  | none => rw [ha] at h; cases h
  | some a =>
    rw [ha] at h
    cases h
    refine ⟨_, rfl, by rw [ha], union_lt _, fun q => ?_⟩
    rw [Rights.inSum_iff]
    refine (Rights.union_bit (t.rights.map Str.lower) q).trans ?_
    constructor
    · rintro ⟨w, hw, h⟩
      obtain ⟨u, hu, rfl⟩ := List.mem_map.1 hw
      exact ⟨u, hu, h⟩
    · rintro ⟨u, hu, h⟩
      exact ⟨_, List.mem_map_of_mem hu, h⟩

/-- **C90**, the full claim. -/
def ReadSays : Prop :=
  ∀ (F : EqualFold) (w : World) (P : Printer) (t : Tokens) (r : Store), Proper w.env F → w.text = P.text → t.b.Known →
    process w t = .ok r → Says F t r

theorem readAllB_length {F : EqualFold} {rs rs' : List BRule} (h : ReadAllB F rs rs') : rs.length = rs'.length := by
  induction h with
  | nil => rfl
  | cons _ _ ih => simp [ih]

/-- **C90** does not hold: `allow(read) ssf >= "71" AND dayofweek = "xyz"` is read without its second
condition. -/
theorem C90_counterexample : ¬ ReadSays := by
  intro h
  obtain ⟨r', -, hp⟩ := sample_parse
  have hu := Rights.unpackage_eq plainWorld.S ⟨some true, [b!"read"]⟩
  obtain ⟨-, b, hb, -, hl⟩ := h EqualFold.ref plainWorld plainPrinter ⟨⟨some true, [b!"read"]⟩, sampleTree⟩ _ plain_proper rfl
    (by simp only [sampleTree, PTree.Known, PTree.AllKnown]; decide) (process_iff.2 ⟨_, _, hu, hp, rfl⟩)
  cases hb
  have := readAllB_length hl
  simp [sampleTree, PTree.conds, PTree.condsAll, BCtx.leaves, BCtx.leavesAll] at this

/-- **C90**, what holds of every text: the rights are those of the text, and the bind rules those
of the text without the entries of each stack from its first unreadable condition on.  Missing: the
entries that are dropped. -/
theorem C90_cut_partial (F : EqualFold) (w : World) (hP : Proper w.env F) (t : Tokens) (hk : t.b.Known) (r : Store)
    (h : process w t = .ok r) (ok : BRule → Bool) (hok : ∀ r, ok r = true ↔ ReadableB F r) :
    Says F { t with b := t.b.cut ok } r := by
  obtain ⟨c, b, h1, h2, rfl⟩ := process_iff.1 h
  exact ⟨rights_read h1, b, rfl, C46_cut_partial F w.env hP w.text t.b hk b h2 ok hok⟩

/-- **C90** for texts all of whose conditions can be read.  Missing: unreadable conditions. -/
theorem C90_readable_partial (F : EqualFold) (w : World) (hP : Proper w.env F) (t : Tokens) (hk : t.b.Known)
    (hr : ∀ r ∈ t.b.conds, ReadableB F r) (r : Store) (h : process w t = .ok r) : Says F t r := by
  obtain ⟨c, b, h1, h2, rfl⟩ := process_iff.1 h
  exact ⟨rights_read h1, b, rfl, C46_readable_partial F w.env hP w.text t.b hk hr b h2⟩

/-- **C90.** Every legible text is read, as a rule that says the same. -/
theorem C90_reads (F : EqualFold) (w : World) (hP : Proper w.env F) (P : Printer) (ht : w.text = P.text) (t : Tokens)
    (h : Legible F t) : ∃ r, process w t = .ok r ∧ Says F t r := by
  obtain ⟨ha, ⟨k, p, es, hb⟩, hk, hf, hr⟩ := h
  obtain ⟨a, ha⟩ := Option.ne_none_iff_exists'.1 ha
  obtain ⟨b, hc⟩ := C46_succeeds F w.env hP P k p es (hb ▸ hk) (hb ▸ hf) (hb ▸ hr)
  rw [← hb, ← ht] at hc
  have hu := Rights.unpackage_eq w.S t.p
  rw [ha] at hu
  have := process_iff.2 ⟨_, b, hu, hc, rfl⟩
  exact ⟨_, this, C90_readable_partial F w hP t hk (fun r hm => (hr r hm).1) _ this⟩

/-- **C90.** Hopeless texts are not read. -/
theorem C90_refuses (F : EqualFold) (w : World) (hP : Proper w.env F) (P : Printer) (ht : w.text = P.text) (t : Tokens)
    (h : Hopeless F t) (r : Store) : process w t ≠ .ok r := by
  intro hr
  obtain ⟨c, b, h1, h2, rfl⟩ := process_iff.1 hr
  rcases h with h | h | ⟨k, p, es, hb, h⟩
  · rw [Rights.unpackage_eq, h] at h1; cases h1
  · have h2 := parse_ok h2
    cases hb : t.b with
    | cond _ => rw [hb] at h2; simp only [convert] at h2; cases h2
    | other => rw [hb] at h2; simp only [convert] at h2; cases h2
    | stack k p es => exact h k p es hb
  · have hcut : convertList w.env w.text [] es = .ok (some []) ∨ convertList w.env w.text [] es = .panic := by
      rcases h with rfl | ⟨r, es', rfl, hn⟩
      · exact Or.inl rfl
      · rw [← readable_iff hP] at hn
        unfold Bind.readable at hn
        rw [convertList]
        cases hv : r.assertValue w.env with
        | panic => exact Or.inr rfl
        | err => exact Or.inl rfl
        | ok r' => rw [hv] at hn; simp at hn
    have h2 := parse_ok h2
    rw [hb] at h2
    simp only [convert] at h2
    cases hw : wordToStack k with
    | none => rw [hw] at h2; cases h2
    | some wd =>
      rw [hw] at h2
      rcases hcut with hc | hc <;> simp only [hc, finish] at h2
      · rw [ht, P.no_entry] at h2; simp [BCtx.anyCrashes] at h2
      · cases h2

theorem readable_legible : Legible EqualFold.ref readable := by
  refine ⟨by simp [readable], ⟨_, _, _, rfl⟩, ?_, ?_, ?_⟩
  · simp only [readable, PTree.Known, PTree.AllKnown]; decide
  · simp only [readable, PTree.Filled, PTree.AllFilled]; decide
  · intro r hr
    simp only [readable, PTree.conds, PTree.condsAll, List.mem_singleton, List.append_nil] at hr
    subst hr
    refine ⟨⟨.ssf, 0, _, _, ⟨by decide, rfl⟩, .factor (b := 70) ((inside_iff _ _).2 (by decide +kernel))⟩, rfl, by decide, ?_⟩
    rintro ⟨k, style, v, p, hk, hw, -⟩
    have : k = .ssf := (matchBKW_iff _ k).2 hw.1 |>.symm.trans ((matchBKW_iff _ .ssf).2 (by decide)) |> bkwConst_inj
    subst this
    cases hk

example : Legible EqualFold.ref ⟨⟨some true, [b!"read"]⟩, nestedTree⟩ := by
  obtain ⟨h1, h2, h3⟩ := nested_known
  exact ⟨by simp, ⟨_, _, _, rfl⟩, h1, h2, fun r hr => (good_iff plain_proper r).1 (h3 r hr)⟩

example : Hopeless EqualFold.ref ⟨⟨some true, [b!"read"]⟩, .stack b!"AND" false []⟩ :=
  Or.inr (Or.inr ⟨_, _, _, rfl, Or.inl rfl⟩)

end Verif.PB
