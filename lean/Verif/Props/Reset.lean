import Verif.Model.Reset
import Verif.Lemmas.Case
import Verif.Lemmas.DN

/-!
# C107: only an empty list takes another keyword
-/

namespace Verif.Reset
open Verif Verif.Spec Verif.Misc Verif.Attr

theorem lower_plain (s : Str) (h : ∀ c ∈ Str.lower s, c ≠ 105 ∧ c ≠ 107) : Str.lower s = s.map Str.lowerByte := by
  fun_induction Str.lower s with
  | case1 => rfl
  | case2 a => rfl
  | case3 a b hab => exact absurd rfl (h 105 (by simp)).1
  | case4 a b hab ih =>
    rw [ih fun c hc => h c (List.mem_cons_of_mem _ hc)]; rfl
  | case5 a b c t habc ih => exact absurd rfl (h 107 (by simp)).2
  | case6 a b c t _ hab ih => exact absurd rfl (h 105 (by simp)).1
  | case7 a b c t _ _ ih =>
    rw [ih fun c hc => h c (List.mem_cons_of_mem _ hc)]; rfl

/-- A word in small letters, without `i` and `k`, which have further capital letters. -/
theorem lower_iff {w : Str} (ha : w.all (fun c => decide (c < 128) && c != 105 && c != 107) = true)
    (hl : w.map Str.lowerByte = w) (s : Str) : Str.lower s = w ↔ AnyCase w s := by
  have hw : ∀ c ∈ w, c < 128 ∧ c ≠ 105 ∧ c ≠ 107 := by
    intro c hc
    have := List.all_eq_true.1 ha c hc
    simpa [and_assoc] using this
  constructor
  · intro h
    have := lower_plain s fun c hc => (hw c (h ▸ hc)).2
    unfold AnyCase
    rw [← this, h, hl]
  · intro h
    rw [AnyCase.lower h fun c hc => (hw c hc).1, lower_ascii fun c hc => (hw c hc).1, hl]

/-- The text a keyword is given by: the keyword itself, or its word in any letter case. -/
inductive Given (kw : UInt8 → RArg) (k : UInt8) (word : Str) : RArg → Prop where
  | itself : Given kw k word (kw k)
  | text {s : Str} : AnyCase word s → Given kw k word (.str s)

/-- The words of the keywords, as in the documentation. -/
def bindWords : List (BindKeyword × Str) :=
  [(BindUDN, b!"userdn"), (BindRDN, b!"roledn"), (BindGDN, b!"groupdn")]

/-- The words of target DN lists. -/
def targetWords : List (TargetKeyword × Str) :=
  [(Target, b!"target"), (TargetTo, b!"target_to"), (TargetFrom, b!"target_from")]

/-- The words of lists of object identifiers. -/
def oidWords : List (TargetKeyword × Str) := [(TargetExtOp, b!"extop"), (TargetCtrl, b!"targetcontrol")]

theorem udn_word : BindKeyword.string BindUDN = b!"userdn" := by decide +kernel
theorem rdn_word : BindKeyword.string BindRDN = b!"roledn" := by decide +kernel
theorem gdn_word : BindKeyword.string BindGDN = b!"groupdn" := by decide +kernel
theorem t_word : TargetKeyword.string Target = b!"target" := by decide +kernel
theorem tt_word : TargetKeyword.string TargetTo = b!"target_to" := by decide +kernel
theorem tf_word : TargetKeyword.string TargetFrom = b!"target_from" := by decide +kernel
theorem ext_word : TargetKeyword.string TargetExtOp = b!"extop" := by decide +kernel
theorem ctrl_word : TargetKeyword.string TargetCtrl = b!"targetcontrol" := by decide +kernel

theorem udn_iff (s : Str) : Str.lower s = b!"userdn" ↔ AnyCase b!"userdn" s := lower_iff (by decide) (by decide) s
theorem rdn_iff (s : Str) : Str.lower s = b!"roledn" ↔ AnyCase b!"roledn" s := lower_iff (by decide) (by decide) s
theorem gdn_iff (s : Str) : Str.lower s = b!"groupdn" ↔ AnyCase b!"groupdn" s := lower_iff (by decide) (by decide) s
theorem t_iff (s : Str) : Str.lower s = b!"target" ↔ AnyCase b!"target" s := lower_iff (by decide) (by decide) s
theorem tt_iff (s : Str) : Str.lower s = b!"target_to" ↔ AnyCase b!"target_to" s := lower_iff (by decide) (by decide) s
theorem tf_iff (s : Str) : Str.lower s = b!"target_from" ↔ AnyCase b!"target_from" s := lower_iff (by decide) (by decide) s
theorem ext_iff (s : Str) : Str.lower s = b!"extop" ↔ AnyCase b!"extop" s := lower_iff (by decide) (by decide) s
theorem ctrl_iff (s : Str) : Str.lower s = b!"targetcontrol" ↔ AnyCase b!"targetcontrol" s :=
  lower_iff (by decide) (by decide) s

theorem anyCase_word {w w' s : Str} (h : AnyCase w s) (h' : AnyCase w' s) : w.map Str.lowerByte = w'.map Str.lowerByte :=
  h.symm.trans h'

/-- The keyword an empty list of bind DNs takes. -/
theorem bdns_str {kw : BindKeyword} (s : Str) :
    bdnsText ⟨kw, []⟩ s =
      ⟨if AnyCase b!"userdn" s then BindUDN else if AnyCase b!"roledn" s then BindRDN
        else if AnyCase b!"groupdn" s then BindGDN else kw, []⟩ := by
  simp only [bdnsText, List.length_nil, gt_iff_lt, Nat.lt_irrefl, if_false, udn_word, rdn_word, gdn_word, udn_iff, rdn_iff,
    gdn_iff]
  repeat' split
  all_goals rfl

theorem tdns_str {kw : TargetKeyword} (s : Str) :
    tdnsText ⟨kw, []⟩ s =
      ⟨if AnyCase b!"target" s then Target else if AnyCase b!"target_to" s then TargetTo
        else if AnyCase b!"target_from" s then TargetFrom else kw, []⟩ := by
  simp only [tdnsText, List.length_nil, gt_iff_lt, Nat.lt_irrefl, if_false, t_word, tt_word, tf_word, t_iff, tt_iff, tf_iff]
  repeat' split
  all_goals rfl

theorem oids_str {kw : TargetKeyword} (s : Str) :
    oidsText ⟨kw, []⟩ s =
      ⟨if AnyCase b!"extop" s then TargetExtOp else if AnyCase b!"targetcontrol" s then TargetCtrl else kw, []⟩ := by
  simp only [oidsText, List.length_nil, if_true, ext_word, ctrl_word, ext_iff, ctrl_iff]
  repeat' split
  all_goals rfl

theorem bind_word_inj (k : BindKeyword) :
    (AnyCase b!"userdn" (BindKeyword.string k) ↔ k = BindUDN) ∧ (AnyCase b!"roledn" (BindKeyword.string k) ↔ k = BindRDN) ∧
    (AnyCase b!"groupdn" (BindKeyword.string k) ↔ k = BindGDN) := by
  revert k
  decide +kernel

theorem target_word_inj (k : TargetKeyword) :
    (AnyCase b!"target" (TargetKeyword.string k) ↔ k = Target) ∧
    (AnyCase b!"target_to" (TargetKeyword.string k) ↔ k = TargetTo) ∧
    (AnyCase b!"target_from" (TargetKeyword.string k) ↔ k = TargetFrom) ∧
    (AnyCase b!"extop" (TargetKeyword.string k) ↔ k = TargetExtOp) ∧
    (AnyCase b!"targetcontrol" (TargetKeyword.string k) ↔ k = TargetCtrl) := by
  revert k
  decide +kernel

/-- What an empty list of bind DNs becomes. -/
theorem bdns_given {kw k : BindKeyword} {w : Str} {x : RArg} (hk : (k, w) ∈ bindWords) (hx : Given .bind k w x) :
    bdnsReset ⟨kw, []⟩ x = ⟨k, []⟩ := by
  have key : ∀ s, AnyCase w s → bdnsText ⟨kw, []⟩ s = ⟨k, []⟩ := by
    intro s hs
    rw [bdns_str]
    simp only [bindWords, List.mem_cons, Prod.mk.injEq, List.not_mem_nil, or_false] at hk
    rcases hk with ⟨rfl, rfl⟩ | ⟨rfl, rfl⟩ | ⟨rfl, rfl⟩
    · rw [if_pos hs]
    · rw [if_neg fun h => absurd (anyCase_word h hs) (by decide), if_pos hs]
    · rw [if_neg fun h => absurd (anyCase_word h hs) (by decide), if_neg fun h => absurd (anyCase_word h hs) (by decide),
        if_pos hs]
  cases hx with
  | text h => exact key _ h
  | itself =>
    refine (key _ ?_)
    obtain ⟨h1, h2, h3⟩ := bind_word_inj k
    simp only [bindWords, List.mem_cons, Prod.mk.injEq, List.not_mem_nil, or_false] at hk
    rcases hk with ⟨rfl, rfl⟩ | ⟨rfl, rfl⟩ | ⟨rfl, rfl⟩
    · exact h1.2 rfl
    · exact h2.2 rfl
    · exact h3.2 rfl

theorem tdns_given {kw k : TargetKeyword} {w : Str} {x : RArg} (hk : (k, w) ∈ targetWords) (hx : Given .target k w x) :
    tdnsReset ⟨kw, []⟩ x = ⟨k, []⟩ := by
  have key : ∀ s, AnyCase w s → tdnsText ⟨kw, []⟩ s = ⟨k, []⟩ := by
    intro s hs
    rw [tdns_str]
    simp only [targetWords, List.mem_cons, Prod.mk.injEq, List.not_mem_nil, or_false] at hk
    rcases hk with ⟨rfl, rfl⟩ | ⟨rfl, rfl⟩ | ⟨rfl, rfl⟩
    · rw [if_pos hs]
    · rw [if_neg fun h => absurd (anyCase_word h hs) (by decide), if_pos hs]
    · rw [if_neg fun h => absurd (anyCase_word h hs) (by decide), if_neg fun h => absurd (anyCase_word h hs) (by decide),
        if_pos hs]
  cases hx with
  | text h => exact key _ h
  | itself =>
    refine (key _ ?_)
    obtain ⟨h1, h2, h3, -⟩ := target_word_inj k
    simp only [targetWords, List.mem_cons, Prod.mk.injEq, List.not_mem_nil, or_false] at hk
    rcases hk with ⟨rfl, rfl⟩ | ⟨rfl, rfl⟩ | ⟨rfl, rfl⟩
    · exact h1.2 rfl
    · exact h2.2 rfl
    · exact h3.2 rfl

theorem oids_given {kw k : TargetKeyword} {w : Str} {x : RArg} (hk : (k, w) ∈ oidWords) (hx : Given .target k w x) :
    oidsReset ⟨kw, []⟩ x = ⟨k, []⟩ := by
  have key : ∀ s, AnyCase w s → oidsText ⟨kw, []⟩ s = ⟨k, []⟩ := by
    intro s hs
    rw [oids_str]
    simp only [oidWords, List.mem_cons, Prod.mk.injEq, List.not_mem_nil, or_false] at hk
    rcases hk with ⟨rfl, rfl⟩ | ⟨rfl, rfl⟩
    · rw [if_pos hs]
    · rw [if_neg fun h => absurd (anyCase_word h hs) (by decide), if_pos hs]
  cases hx with
  | text h => exact key _ h
  | itself =>
    refine (key _ ?_)
    obtain ⟨-, -, -, h1, h2⟩ := target_word_inj k
    simp only [oidWords, List.mem_cons, Prod.mk.injEq, List.not_mem_nil, or_false] at hk
    rcases hk with ⟨rfl, rfl⟩ | ⟨rfl, rfl⟩
    · exact h1.2 rfl
    · exact h2.2 rfl

/-- **C107**, bind DNs: a list with entries stays as it is, whatever is given; an empty list
takes each of its three keywords, in any letter case, reports it and accepts names of this
keyword only; what is no such keyword changes nothing. -/
theorem C107_bind (F : EqualFold) (r : DNList.BDNs) (x : RArg) :
    (r.entries ≠ [] → bdnsReset r x = r) ∧
    (r.entries = [] → ∀ k w, (k, w) ∈ bindWords → Given .bind k w x →
      (bdnsReset r x).entries = [] ∧ Reports.bdnsKeyword (some (bdnsReset r x)) = some k ∧
      ∀ d, DN.isZero d = false →
        (DN.keyword d = some k → ((bdnsReset r x).push F.eq [.dn d]).entries = [.dn d]) ∧
        (DN.keyword d ≠ some k → ((bdnsReset r x).push F.eq [.dn d]).entries = [])) ∧
    ((∀ k w, (k, w) ∈ bindWords → ¬ Given .bind k w x) → bdnsReset r x = r) := by
  obtain ⟨kw, es⟩ := r
  have hfull : es ≠ [] → bdnsReset ⟨kw, es⟩ x = ⟨kw, es⟩ := by
    intro h
    have hl : es.length > 0 := List.length_pos_iff.2 h
    cases x <;> simp [bdnsReset, bdnsText, hl]
  refine ⟨hfull, ?_, ?_⟩
  · rintro he k w hk hx
    have he : es = [] := he
    subst he
    rw [bdns_given hk hx]
    refine ⟨rfl, ?_, fun d hd => ⟨fun h => ?_, fun h => ?_⟩⟩
    · simp only [bindWords, List.mem_cons, Prod.mk.injEq, List.not_mem_nil, or_false] at hk
      rcases hk with ⟨rfl, -⟩ | ⟨rfl, -⟩ | ⟨rfl, -⟩ <;> decide +kernel
    · simp [DNList.BDNs.push, DNList.pushLoop, DNList.pushBindArg, hd, h, DNList.pushEntry, DNList.containsText]
    · simp [DNList.BDNs.push, DNList.pushLoop, DNList.pushBindArg, hd, h]
  · intro h
    by_cases he : es = []
    · subst he
      have hs : ∀ s, ¬ AnyCase b!"userdn" s → ¬ AnyCase b!"roledn" s → ¬ AnyCase b!"groupdn" s →
          bdnsText ⟨kw, []⟩ s = ⟨kw, []⟩ := by
        intro s h1 h2 h3
        rw [bdns_str, if_neg h1, if_neg h2, if_neg h3]
      cases x with
      | bind k =>
        obtain ⟨h1, h2, h3⟩ := bind_word_inj k
        refine hs _ (fun e => ?_) (fun e => ?_) (fun e => ?_)
        · have := h1.1 e; subst this; exact h BindUDN b!"userdn" (by simp [bindWords]) .itself
        · have := h2.1 e; subst this; exact h BindRDN b!"roledn" (by simp [bindWords]) .itself
        · have := h3.1 e; subst this; exact h BindGDN b!"groupdn" (by simp [bindWords]) .itself
      | str s =>
        exact hs _ (fun e => h BindUDN b!"userdn" (by simp [bindWords]) (.text e))
          (fun e => h BindRDN b!"roledn" (by simp [bindWords]) (.text e))
          (fun e => h BindGDN b!"groupdn" (by simp [bindWords]) (.text e))
      | target k => rfl
      | other => rfl
    · exact hfull he

/-- **C107**, target DNs: as `C107_bind`. -/
theorem C107_target (F : EqualFold) (r : DNList.TDNs) (x : RArg) :
    (r.entries ≠ [] → tdnsReset r x = r) ∧
    (r.entries = [] → ∀ k w, (k, w) ∈ targetWords → Given .target k w x →
      (tdnsReset r x).entries = [] ∧ Reports.tdnsKeyword (some (tdnsReset r x)) = some k ∧
      ∀ d, DN.isZero d = false →
        (DN.keyword d = some k → ((tdnsReset r x).push F.eq [.dn d]).entries = [d]) ∧
        (DN.keyword d ≠ some k → ((tdnsReset r x).push F.eq [.dn d]).entries = [])) ∧
    ((∀ k w, (k, w) ∈ targetWords → ¬ Given .target k w x) → tdnsReset r x = r) := by
  obtain ⟨kw, es⟩ := r
  have hfull : es ≠ [] → tdnsReset ⟨kw, es⟩ x = ⟨kw, es⟩ := by
    intro h
    have hl : es.length > 0 := List.length_pos_iff.2 h
    cases x <;> simp [tdnsReset, tdnsText, hl]
  refine ⟨hfull, ?_, ?_⟩
  · rintro he k w hk hx
    have he : es = [] := he
    subst he
    rw [tdns_given hk hx]
    refine ⟨rfl, ?_, fun d hd => ⟨fun h => ?_, fun h => ?_⟩⟩
    · simp only [targetWords, List.mem_cons, Prod.mk.injEq, List.not_mem_nil, or_false] at hk
      rcases hk with ⟨rfl, -⟩ | ⟨rfl, -⟩ | ⟨rfl, -⟩ <;> decide +kernel
    · simp [DNList.TDNs.push, DNList.pushTargetLoop, DNList.pushTargetArg, hd, h, DNList.pushTargetEntry,
        DNList.containsText]
    · simp [DNList.TDNs.push, DNList.pushTargetLoop, DNList.pushTargetArg, hd, h]
  · intro h
    by_cases he : es = []
    · subst he
      have hs : ∀ s, ¬ AnyCase b!"target" s → ¬ AnyCase b!"target_to" s → ¬ AnyCase b!"target_from" s →
          tdnsText ⟨kw, []⟩ s = ⟨kw, []⟩ := by
        intro s h1 h2 h3
        rw [tdns_str, if_neg h1, if_neg h2, if_neg h3]
      cases x with
      | target k =>
        obtain ⟨h1, h2, h3, -⟩ := target_word_inj k
        refine hs _ (fun e => ?_) (fun e => ?_) (fun e => ?_)
        · have := h1.1 e; subst this; exact h Target b!"target" (by simp [targetWords]) .itself
        · have := h2.1 e; subst this; exact h TargetTo b!"target_to" (by simp [targetWords]) .itself
        · have := h3.1 e; subst this; exact h TargetFrom b!"target_from" (by simp [targetWords]) .itself
      | str s =>
        exact hs _ (fun e => h Target b!"target" (by simp [targetWords]) (.text e))
          (fun e => h TargetTo b!"target_to" (by simp [targetWords]) (.text e))
          (fun e => h TargetFrom b!"target_from" (by simp [targetWords]) (.text e))
      | bind k => rfl
      | other => rfl
    · exact hfull he

/-- **C107**, object identifiers: as `C107_bind`. -/
theorem C107_oid (F : EqualFold) (read : Str → Option Str) (r : Oid.OIDs) (x : RArg) :
    (r.entries ≠ [] → oidsReset r x = r) ∧
    (r.entries = [] → ∀ k w, (k, w) ∈ oidWords → Given .target k w x →
      (oidsReset r x).entries = [] ∧ Reports.oidsKeyword (some (oidsReset r x)) = k ∧
      ∀ o, Oid.isZero o = false →
        (Oid.keyword o = some k → ((oidsReset r x).push F.eq read [.oid o]).entries = [.oid o]) ∧
        (Oid.keyword o ≠ some k → ((oidsReset r x).push F.eq read [.oid o]).entries = [])) ∧
    ((∀ k w, (k, w) ∈ oidWords → ¬ Given .target k w x) → oidsReset r x = r) := by
  obtain ⟨kw, es⟩ := r
  have hfull : es ≠ [] → oidsReset ⟨kw, es⟩ x = ⟨kw, es⟩ := by
    intro h
    cases x <;> simp [oidsReset, oidsText, h]
  refine ⟨hfull, ?_, ?_⟩
  · rintro he k w hk hx
    have he : es = [] := he
    subst he
    rw [oids_given hk hx]
    refine ⟨rfl, ?_, fun o ho => ⟨fun h => ?_, fun h => ?_⟩⟩
    · simp only [oidWords, List.mem_cons, Prod.mk.injEq, List.not_mem_nil, or_false] at hk
      rcases hk with ⟨rfl, -⟩ | ⟨rfl, -⟩ <;> decide +kernel
    · have hc : Oid.OIDs.contains F.eq ⟨k, []⟩ (.oid o) = false := by
        simp [Oid.OIDs.contains, Oid.candidate, Oid.containsText]
      simp [Oid.OIDs.push, Oid.OIDs.pushOne, Oid.OIDs.pushEntry, hc, ho, h]
    · simp [Oid.OIDs.push, Oid.OIDs.pushOne, Oid.OIDs.pushEntry, ho, h]
  · intro h
    by_cases he : es = []
    · subst he
      have hs : ∀ s, ¬ AnyCase b!"extop" s → ¬ AnyCase b!"targetcontrol" s → oidsText ⟨kw, []⟩ s = ⟨kw, []⟩ := by
        intro s h1 h2
        rw [oids_str, if_neg h1, if_neg h2]
      cases x with
      | target k =>
        obtain ⟨-, -, -, h1, h2⟩ := target_word_inj k
        refine hs _ (fun e => ?_) (fun e => ?_)
        · have := h1.1 e; subst this; exact h TargetExtOp b!"extop" (by simp [oidWords]) .itself
        · have := h2.1 e; subst this; exact h TargetCtrl b!"targetcontrol" (by simp [oidWords]) .itself
      | str s =>
        exact hs _ (fun e => h TargetExtOp b!"extop" (by simp [oidWords]) (.text e))
          (fun e => h TargetCtrl b!"targetcontrol" (by simp [oidWords]) (.text e))
      | bind k => rfl
      | other => rfl
    · exact hfull he

example : Given .bind BindGDN b!"groupdn" (.str b!"GroupDN") ∧ Given .bind BindGDN b!"groupdn" (.bind BindGDN) ∧
    (∀ k w, (k, w) ∈ bindWords → ¬ Given .bind k w (.str b!"userattr")) := by
  refine ⟨.text (by decide), .itself, fun k w hk h => ?_⟩
  cases h with
  | text h =>
    simp only [bindWords, List.mem_cons, Prod.mk.injEq, List.not_mem_nil, or_false] at hk
    rcases hk with ⟨-, rfl⟩ | ⟨-, rfl⟩ | ⟨-, rfl⟩ <;> exact absurd h (by decide)

/-! ## Attribute types -/

/-- The claim for lists of attribute types: a list that takes a keyword reports a keyword. -/
def ReportsReset : Prop :=
  ∀ (r : ATList) (x : RArg), r.entries = [] → atsKeyword r ≠ 0 → atsKeyword (atsReset r x) ≠ 0

/-- **C107** fails for lists of attribute types: after `userattr` the list has a category
that is no keyword of targets, and `Keyword` returns none. -/
theorem C107_counterexample : ¬ ReportsReset := by
  intro h
  exact h ⟨TargetKeyword.string TargetAttr, []⟩ (.bind BindUAT) rfl (by decide +kernel) (by decide +kernel)

/-- **C107**, attribute types: a list with entries stays as it is; an empty list takes
`targetattr` in any letter case and reports it; what is neither this nor `userattr` nor
`groupattr` changes nothing.  Missing: the last two, see `C107_counterexample`. -/
theorem C107_attributes_partial (r : ATList) (x : RArg) :
    (atsReset r x).entries = r.entries ∧
    (r.entries ≠ [] → atsReset r x = r) ∧
    (r.entries = [] → (x = .target TargetAttr ∨ ∃ s, AnyCase b!"targetattr" s ∧ x = .str s) →
      atsKeyword (atsReset r x) = TargetAttr) ∧
    ((∀ s, x = .str s → ¬ AnyCase b!"targetattr" s ∧ ¬ AnyCase b!"userattr" s ∧ ¬ AnyCase b!"groupattr" s) →
      x ≠ .target TargetAttr → x ≠ .bind BindUAT → x ≠ .bind BindGAT → atsReset r x = r) := by
  have ta : TargetKeyword.string TargetAttr = b!"targetattr" := by decide +kernel
  have ua : BindKeyword.string BindUAT = b!"userattr" := by decide +kernel
  have ga : BindKeyword.string BindGAT = b!"groupattr" := by decide +kernel
  have ta_iff : ∀ s, Str.lower s = b!"targetattr" ↔ AnyCase b!"targetattr" s := lower_iff (by decide) (by decide)
  have ua_iff : ∀ s, Str.lower s = b!"userattr" ↔ AnyCase b!"userattr" s := lower_iff (by decide) (by decide)
  have ga_iff : ∀ s, Str.lower s = b!"groupattr" ↔ AnyCase b!"groupattr" s := lower_iff (by decide) (by decide)
  have tw : ∀ k : TargetKeyword, (AnyCase b!"targetattr" (TargetKeyword.string k) ↔ k = TargetAttr) ∧
      ¬ AnyCase b!"userattr" (TargetKeyword.string k) ∧ ¬ AnyCase b!"groupattr" (TargetKeyword.string k) := by
    decide +kernel
  have bw : ∀ k : BindKeyword, ¬ AnyCase b!"targetattr" (BindKeyword.string k) ∧
      (AnyCase b!"userattr" (BindKeyword.string k) ↔ k = BindUAT) ∧
      (AnyCase b!"groupattr" (BindKeyword.string k) ↔ k = BindGAT) := by
    decide +kernel
  have htext : ∀ s, (atsText r s).entries = r.entries := by
    intro s; unfold atsText; repeat' split
    all_goals rfl
  have hno : ∀ s, ¬ AnyCase b!"targetattr" s → ¬ AnyCase b!"userattr" s → ¬ AnyCase b!"groupattr" s →
      atsText r s = r := by
    intro s h1 h2 h3
    unfold atsText
    rw [ta, ua, ga, if_neg (c := Str.lower s = _) fun e => h1 ((ta_iff s).1 e),
      if_neg (not_or.2 ⟨fun e => h2 ((ua_iff s).1 e), fun e => h3 ((ga_iff s).1 e)⟩)]
    split <;> rfl
  have hyes : ∀ s, AnyCase b!"targetattr" s → r.entries = [] → atsKeyword (atsText r s) = TargetAttr := by
    intro s h he
    unfold atsText
    rw [ta, if_neg (by rw [he]; decide), if_pos ((ta_iff s).2 h)]
    show Reports.kindKeyword (Str.lower s) = _
    rw [(ta_iff s).2 h]
    decide +kernel
  refine ⟨?_, ?_, ?_, ?_⟩
  · cases x <;> simp only [atsReset] <;> repeat' split
    all_goals first | rfl | exact htext _
  · intro h
    have hl : r.entries.length > 0 := List.length_pos_iff.2 h
    cases x <;> simp [atsReset, atsText, hl]
  · rintro he (rfl | ⟨s, hs, rfl⟩)
    · simp only [atsReset, he, List.length_nil, gt_iff_lt, Nat.lt_irrefl, if_false]
      exact hyes _ ((tw TargetAttr).1.2 rfl) he
    · exact hyes s hs he
  · intro h h1 h2 h3
    cases x with
    | str s => exact hno s (h s rfl).1 (h s rfl).2.1 (h s rfl).2.2
    | other => rfl
    | bind k =>
      simp only [atsReset]
      split
      · rfl
      · exact hno _ (bw k).1 (fun e => h2 (by rw [(bw k).2.1.1 e])) (fun e => h3 (by rw [(bw k).2.2.1 e]))
    | target k =>
      simp only [atsReset]
      split
      · rfl
      · exact hno _ (fun e => h1 (by rw [(tw k).1.1 e])) (tw k).2.1 (tw k).2.2

example : atsKeyword (atsReset ⟨b!"userattr", []⟩ (.str b!"TargetAttr")) = TargetAttr := by decide +kernel

end Verif.Reset
