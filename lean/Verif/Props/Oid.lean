import Verif.Lemmas.Lists
import Verif.Lemmas.Case
import Verif.Model.Oid

/-!
# C37 and C59: object identifiers
-/

namespace Verif.Oid
open Verif Verif.Spec

/-- An identifier that is set: it has a keyword and a text that was read. -/
def Set (R : DotReader) (o : ObjectIdentifier) (k : TargetKeyword) (t : Str) : Prop :=
  o = some ⟨k, some t⟩ ∧ k ≠ 0 ∧ ∃ s, R.read s = some t

/-- The identifiers that exist outside the package: the zero value and what the
constructors return, for keywords other than 0. -/
def Made (R : DotReader) (o : ObjectIdentifier) : Prop :=
  isZero o = true ∨ ∃ k t, Set R o k t

theorem set_not_zero {R : DotReader} {o : ObjectIdentifier} {k : TargetKeyword} {t : Str}
    (h : Set R o k t) : isZero o = false ∧ string o = t ∧ keyword o = some k := by
  obtain ⟨rfl, hk, _⟩ := h
  have hz : isZero (some ⟨k, some t⟩) = false := by simp [isZero, hk]
  refine ⟨hz, ?_, ?_⟩
  · simp [string, hz]
  · simp [keyword, hz]

/-- A reader for tests: texts of digits and full stops, unchanged. -/
def plainReader : DotReader where
  read s := if s ≠ [] ∧ ∀ c ∈ s, c = 46 ∨ (48 ≤ c ∧ c ≤ 57) then some s else none
  dots s t h := by
    split at h
    · injection h with h; subst h; assumption
    · cases h

theorem read_bad {R : DotReader} {s t : Str} (h : R.read s = some t) :
    t ≠ [] ∧ t ≠ badDotNot := by
  obtain ⟨h0, h1⟩ := R.dots s t h
  refine ⟨h0, ?_⟩
  rintro rfl
  exact absurd (h1 60 (by decide)) (by decide)

/-- The dotted texts of the identifiers in a list. -/
def dotted (es : List Entry) : List Str := (es.filter fun e => !isZero e.asOid).map fun e => string e.asOid

/-- The list is in order: it is for controls or for extended operations, and the
identifiers in it are set and have its keyword. -/
def Good (R : DotReader) (r : OIDs) : Prop :=
  (r.kw = TargetCtrl ∨ r.kw = TargetExtOp) ∧
  ∀ o, Entry.oid o ∈ r.entries → ∃ t, Set R o r.kw t

theorem dotted_snoc (es : List Entry) (e : Entry) :
    dotted (es ++ [e]) = if isZero e.asOid then dotted es else dotted es ++ [string e.asOid] := by
  unfold dotted
  cases h : isZero e.asOid <;> simp [h]

theorem read_fold {R : DotReader} {s t : Str} (h : R.read s = some t) :
    Str.IsAscii t ∧ Str.fold t = t := by
  have hta : Str.IsAscii t := by
    intro c hc
    rcases (R.dots _ _ h).2 c hc with rfl | ⟨_, h⟩
    · decide
    · exact UInt8.lt_of_le_of_lt h (by decide)
  refine ⟨hta, ?_⟩
  rw [fold_ascii hta]
  have key : ∀ c : Byte, (c = 46 ∨ (48 ≤ c ∧ c ≤ 57)) → Str.lowerByte c = c := by decide +kernel
  have : t.map Str.lowerByte = t.map id := List.map_congr_left fun c hc => key c ((R.dots _ _ h).2 c hc)
  rw [this, List.map_id]

/-- Texts that were read are equal up to letter case only when they are equal. -/
theorem read_eq {R : DotReader} (F : EqualFold) {s t s' t' : Str} (h : R.read s = some t)
    (h' : R.read s' = some t') : F.eq t t' = (t == t') := by
  rw [Bool.eq_iff_iff, F.ascii _ _ (read_fold h').1, (read_fold h).2, (read_fold h').2]
  simp

theorem bad_ne {R : DotReader} (F : EqualFold) {s t : Str} (h : R.read s = some t) :
    F.eq badDotNot t = false := by
  rw [Bool.eq_false_iff]
  intro he
  have hf := (F.ascii _ _ (read_fold h).1).1 he
  rw [(read_fold h).2] at hf
  have h60 : (60 : Byte) ∈ t := by rw [← hf]; decide
  rcases (R.dots _ _ h).2 60 h60 with h | h
  · revert h; decide
  · revert h; decide

theorem any_dotted {R : DotReader} (F : EqualFold) (es : List Entry) {s t : Str}
    (h : R.read s = some t) :
    (es.any fun e => F.eq (string e.asOid) t) = (dotted es).any fun s => F.eq s t := by
  unfold dotted
  induction es with
  | nil => rfl
  | cons e es ih =>
    simp only [List.any_cons, List.filter_cons, ih]
    cases hze : isZero e.asOid with
    | false => simp
    | true =>
      have : F.eq (string e.asOid) t = false := by
        rw [string, hze, if_pos rfl]; exact bad_ne F h
      simp [this]

theorem dotted_read {R : DotReader} {r : OIDs} (h : Good R r) {t : Str} (ht : t ∈ dotted r.entries) :
    ∃ s, R.read s = some t := by
  obtain ⟨e, he, het⟩ := List.mem_map.1 ht
  obtain ⟨he, hz⟩ := List.mem_filter.1 he
  cases e with
  | kw k => cases hz
  | oid o =>
    obtain ⟨t', ho⟩ := h.2 o he
    have := (set_not_zero ho).2.1
    rw [← het]
    show ∃ s, R.read s = some (string o)
    rw [this]; exact ho.2.2

theorem contains_dotted {R : DotReader} (F : EqualFold) {r : OIDs} (h : Good R r)
    {o : ObjectIdentifier} {k : TargetKeyword} {t : Str} (ho : Set R o k t) :
    r.contains F.eq (.oid o) = true ↔ t ∈ dotted r.entries := by
  obtain ⟨hz, hs, _⟩ := set_not_zero ho
  obtain ⟨_, _, s0, h0⟩ := ho
  have hb := read_bad h0
  simp only [OIDs.contains, candidate, hs, containsText]
  rw [if_neg (by simp [hb.1, hb.2]), any_dotted F _ h0, List.any_eq_true]
  constructor
  · rintro ⟨t', ht', he⟩
    obtain ⟨s', hs'⟩ := dotted_read h ht'
    rw [read_eq F hs' h0] at he
    rw [← beq_iff_eq.1 he]; exact ht'
  · intro ht
    exact ⟨t, ht, F.refl t⟩

theorem newObjectID_str (read : Str → Option Str) (kw : TargetKeyword) (s : Str) :
    newObjectID read kw [.str s] = match read s with
      | some t => (⟨kw, some t⟩, true)
      | none => (⟨0, none⟩, false) := by
  cases h : read s <;> simp [newObjectID, setOne, h]

theorem F_str {R : DotReader} {r : OIDs} (h : Good R r) (s : Str) :
    r.F R.read [.str s] = match R.read s with
      | some t => some ⟨r.kw, some t⟩
      | none => some ⟨0, none⟩ := by
  unfold OIDs.F ExtOp Ctrl
  rcases h.1 with hk | hk
  · rw [if_neg (by rw [hk]; decide), newObjectID_str, hk]; cases R.read s <;> rfl
  · rw [if_pos hk, newObjectID_str, hk]; cases R.read s <;> rfl

/-- The text an argument stands for in a list of keyword `k`: a text that can be read
stands for its reading, an identifier of that keyword for its own. -/
def Offer (R : DotReader) (k : TargetKeyword) (x : Arg) (t : Str) : Prop :=
  (∃ s, x = .str s ∧ R.read s = some t) ∨ (∃ o, x = .oid o ∧ Set R o k t)

/-- What a push does to a list in order: an argument that stands for a text not yet in
the list adds an identifier with this text; a keyword adds itself, and gives its kind
to an empty list; nothing else has an effect. -/
theorem pushOne_cases {R : DotReader} (F : EqualFold) {r : OIDs} (h : Good R r) (x : Arg)
    (hx : ∀ o, x = .oid o → Made R o) :
    (∃ t o, Offer R r.kw x t ∧ Set R o r.kw t ∧ t ∉ dotted r.entries ∧
      r.pushOne F.eq R.read x = { r with entries := r.entries ++ [.oid o] }) ∨
    (∃ k, x = .kw k ∧ (r.pushOne F.eq R.read x).entries = r.entries ++ [.kw k] ∧
      ((r.pushOne F.eq R.read x).kw = r.kw ∨ (r.entries = [] ∧ (k = TargetExtOp ∨ k = TargetCtrl) ∧
        (r.pushOne F.eq R.read x).kw = k))) ∨
    ((∀ k, x ≠ .kw k) ∧ (∀ t, Offer R r.kw x t → t ∈ dotted r.entries) ∧
      r.pushOne F.eq R.read x = r) := by
  have hk0 : r.kw ≠ 0 := by rcases h.1 with e | e <;> rw [e] <;> decide
  -- an identifier that is set
  have good : ∀ x o t, Offer R r.kw x t → (∀ t', Offer R r.kw x t' → t' = t) → (∀ k, x ≠ .kw k) →
      Set R o r.kw t → r.pushOne F.eq R.read x = r.pushEntry F.eq (.oid o) →
      ((∃ t o, Offer R r.kw x t ∧ Set R o r.kw t ∧ t ∉ dotted r.entries ∧
        r.pushOne F.eq R.read x = { r with entries := r.entries ++ [.oid o] }) ∨
      ((∀ k, x ≠ .kw k) ∧ (∀ t, Offer R r.kw x t → t ∈ dotted r.entries) ∧
        r.pushOne F.eq R.read x = r)) := by
    intro x o t hof huniq hnk ho he
    obtain ⟨hz, _, hkw⟩ := set_not_zero ho
    by_cases hc : r.contains F.eq (.oid o) = true
    · refine Or.inr ⟨hnk, ?_, ?_⟩
      · intro t' ht'
        rw [huniq t' ht']; exact (contains_dotted F h ho).1 hc
      · rw [he, OIDs.pushEntry, if_pos hc]
    · refine Or.inl ⟨t, o, hof, ho, fun ht => hc ((contains_dotted F h ho).2 ht), ?_⟩
      rw [he, OIDs.pushEntry, if_neg hc, if_neg (by simp [hz]), if_pos hkw]
  have uniq : ∀ x t t', Offer R r.kw x t → Offer R r.kw x t' → t' = t := by
    rintro x t t' (⟨s, rfl, hs⟩ | ⟨o, rfl, ho⟩) (⟨s', e, hs'⟩ | ⟨o', e, ho'⟩)
    · injection e with e; subst e; rw [hs] at hs'; injection hs' with e; exact e.symm
    · cases e
    · cases e
    · injection e with e; subst e
      rw [← (set_not_zero ho).2.1, ← (set_not_zero ho').2.1]
  cases x with
  | other =>
    refine Or.inr (Or.inr ⟨by simp, ?_, rfl⟩)
    rintro t (⟨s, e, _⟩ | ⟨o, e, _⟩) <;> cases e
  | kw k =>
    refine Or.inr (Or.inl ⟨k, rfl, ?_, ?_⟩)
    · rfl
    · show (r.resetKeyword k).kw = r.kw ∨ _
      unfold OIDs.resetKeyword
      split
      · next hh => exact Or.inr ⟨List.eq_nil_of_length_eq_zero hh.1, hh.2, by
          show (r.resetKeyword k).kw = k
          unfold OIDs.resetKeyword
          rw [if_pos hh]⟩
      · exact Or.inl rfl
  | str s =>
    cases hr : R.read s with
    | none =>
      refine Or.inr (Or.inr ⟨by simp, ?_, ?_⟩)
      · rintro t (⟨s', e, hs'⟩ | ⟨o, e, _⟩)
        · injection e with e; subst e; rw [hr] at hs'; cases hs'
        · cases e
      · show r.pushEntry F.eq (.oid (r.F R.read [.str s])) = r
        rw [F_str h, hr]
        have hz : isZero (some ⟨0, none⟩) = true := rfl
        simp [OIDs.pushEntry, hz]
    | some t =>
      have ho : Set R (some ⟨r.kw, some t⟩) r.kw t := ⟨rfl, hk0, s, hr⟩
      have he : r.pushOne F.eq R.read (.str s) = r.pushEntry F.eq (.oid (some ⟨r.kw, some t⟩)) := by
        show r.pushEntry F.eq (.oid (r.F R.read [.str s])) = _
        rw [F_str h, hr]
      have hof : Offer R r.kw (.str s) t := Or.inl ⟨s, rfl, hr⟩
      rcases good _ _ t hof (fun t' ht' => uniq _ t t' hof ht') (by simp) ho he with g | g
      · exact Or.inl g
      · exact Or.inr (Or.inr g)
  | oid o =>
    rcases hx o rfl with hz | ⟨k, t, ho⟩
    · refine Or.inr (Or.inr ⟨by simp, ?_, ?_⟩)
      · rintro t (⟨s', e, hs'⟩ | ⟨o', e, ho'⟩)
        · cases e
        · injection e with e; subst e
          rw [(set_not_zero ho').1] at hz; cases hz
      · simp [OIDs.pushOne, OIDs.pushEntry, hz]
    · by_cases hk : k = r.kw
      · subst hk
        have hof : Offer R r.kw (.oid o) t := Or.inr ⟨o, rfl, ho⟩
        rcases good _ _ t hof (fun t' ht' => uniq _ t t' hof ht') (by simp) ho rfl with g | g
        · exact Or.inl g
        · exact Or.inr (Or.inr g)
      · refine Or.inr (Or.inr ⟨by simp, ?_, ?_⟩)
        · rintro t (⟨s', e, hs'⟩ | ⟨o', e, ho'⟩)
          · cases e
          · injection e with e; subst e
            have := (set_not_zero ho').2.2
            rw [(set_not_zero ho).2.2] at this
            injection this with this
            exact absurd this hk
        · simp [OIDs.pushOne, OIDs.pushEntry, (set_not_zero ho).2.2, hk]

theorem good_snoc {R : DotReader} {r : OIDs} (h : Good R r) {o : ObjectIdentifier} {t : Str}
    (ho : Set R o r.kw t) : Good R { r with entries := r.entries ++ [.oid o] } := by
  refine ⟨h.1, ?_⟩
  intro o' ho'
  rcases List.mem_append.1 ho' with ho' | ho'
  · exact h.2 o' ho'
  · simp at ho'; subst ho'; exact ⟨t, ho⟩

theorem good_pushOne {R : DotReader} (F : EqualFold) {r : OIDs} (h : Good R r)
    (hn : (dotted r.entries).Nodup) (x : Arg) (hx : ∀ o, x = .oid o → Made R o) :
    Good R (r.pushOne F.eq R.read x) ∧ (dotted (r.pushOne F.eq R.read x).entries).Nodup := by
  rcases pushOne_cases F h x hx with ⟨t, o, _, ho, hnt, he⟩ | ⟨k, rfl, he, hk⟩ | ⟨_, _, he⟩
  · rw [he]
    refine ⟨good_snoc h ho, ?_⟩
    show (dotted (r.entries ++ [.oid o])).Nodup
    rw [dotted_snoc]
    show (if isZero o then _ else _ ++ [string o]).Nodup
    rw [(set_not_zero ho).1, (set_not_zero ho).2.1]
    simp only [Bool.false_eq_true, if_false]
    rw [List.nodup_append]
    refine ⟨hn, by simp, ?_⟩
    intro a ha b hb
    simp at hb; subst hb
    rintro rfl; exact hnt ha
  · refine ⟨⟨?_, ?_⟩, ?_⟩
    · rcases hk with hk | ⟨_, hk', hk⟩
      · rw [hk]; exact h.1
      · rw [hk]; exact hk'.symm
    · rw [he]
      intro o ho
      rcases List.mem_append.1 ho with ho | ho
      · rcases hk with hk | ⟨hnil, _, _⟩
        · rw [hk]; exact h.2 o ho
        · rw [hnil] at ho; simp at ho
      · simp at ho
    · rw [he, dotted_snoc]; exact hn
  · rw [he]; exact ⟨h, hn⟩

/-- The calls that change a list. -/
inductive Call where
  | push (x : List Arg)
  | pop

def step (eq : Str → Str → Bool) (read : Str → Option Str) (r : OIDs) : Call → OIDs
  | .push x => r.push eq read x
  | .pop => r.pop.1

/-- The identifiers pushed in a call are made by the package. -/
def Call.Proper (R : DotReader) : Call → Prop
  | .push x => ∀ o, Arg.oid o ∈ x → Made R o
  | .pop => True

theorem good_push {R : DotReader} (F : EqualFold) (x : List Arg)
    (hx : ∀ o, Arg.oid o ∈ x → Made R o) {r : OIDs} (h : Good R r) (hn : (dotted r.entries).Nodup) :
    Good R (r.push F.eq R.read x) ∧ (dotted (r.push F.eq R.read x).entries).Nodup := by
  induction x generalizing r with
  | nil => exact ⟨h, hn⟩
  | cons a x ih =>
    obtain ⟨h', hn'⟩ := good_pushOne F h hn a (by rintro o rfl; exact hx o (by simp))
    exact ih (fun o ho => hx o (by simp [ho])) h' hn'

theorem good_empty (R : DotReader) {k : TargetKeyword} (hk : k = TargetCtrl ∨ k = TargetExtOp) :
    Good R ⟨k, []⟩ := ⟨hk, by intro o ho; simp at ho⟩

theorem dotted_dropLast {es : List Entry} (h : (dotted es).Nodup) : (dotted es.dropLast).Nodup := by
  unfold dotted at *
  exact h.sublist ((((List.dropLast_sublist es).filter _).map _))

/-- **C37**: after any history of pushes (and pops) on a list made for controls or for
extended operations, the list is for one of the two, every identifier in it is set and
has the list's keyword, and no dotted form occurs twice. -/
theorem C37_invariant (F : EqualFold) (R : DotReader) {k : TargetKeyword}
    (hk : k = TargetCtrl ∨ k = TargetExtOp) (calls : List Call) (hc : ∀ c ∈ calls, c.Proper R) :
    let r := calls.foldl (step F.eq R.read) ⟨k, []⟩
    (r.kw = TargetCtrl ∨ r.kw = TargetExtOp) ∧
    (∀ o, Entry.oid o ∈ r.entries → ∃ t s, o = some ⟨r.kw, some t⟩ ∧ R.read s = some t) ∧
    (dotted r.entries).Nodup := by
  suffices H : ∀ r : OIDs, Good R r → (dotted r.entries).Nodup →
      Good R (calls.foldl (step F.eq R.read) r) ∧
      (dotted (calls.foldl (step F.eq R.read) r).entries).Nodup by
    obtain ⟨h, hn⟩ := H ⟨k, []⟩ (good_empty R hk) (by simp [dotted])
    refine ⟨h.1, ?_, hn⟩
    intro o ho
    obtain ⟨t, e, _, s, hs⟩ := h.2 o ho
    exact ⟨t, s, e, hs⟩
  induction calls with
  | nil => intro r h hn; exact ⟨h, hn⟩
  | cons c calls ih =>
    intro r h hn
    have hstep : Good R (step F.eq R.read r c) ∧ (dotted (step F.eq R.read r c).entries).Nodup := by
      cases c with
      | push x => exact good_push F x (hc (.push x) (by simp)) h hn
      | pop =>
        refine ⟨⟨h.1, ?_⟩, dotted_dropLast hn⟩
        intro o ho
        exact h.2 o (List.dropLast_subset _ ho)
    exact ih (fun c hc' => hc c (by simp [hc'])) _ hstep.1 hstep.2

/-- **C37**, the same for the constructors with their arguments, followed by any
history. -/
theorem C37_constructors (F : EqualFold) (R : DotReader) (x : List Arg)
    (hx : ∀ o, Arg.oid o ∈ x → Made R o) (calls : List Call) (hc : ∀ c ∈ calls, c.Proper R) :
    ∀ r, r = calls.foldl (step F.eq R.read) (Ctrls F.eq R.read x) ∨
      r = calls.foldl (step F.eq R.read) (ExtOps F.eq R.read x) →
    (∀ o, Entry.oid o ∈ r.entries → ∃ t s, o = some ⟨r.kw, some t⟩ ∧ R.read s = some t) ∧
    (dotted r.entries).Nodup := by
  have hc' : ∀ c ∈ Call.push x :: calls, c.Proper R := by
    intro c h
    rcases List.mem_cons.1 h with rfl | h
    · exact hx
    · exact hc c h
  rintro r (rfl | rfl)
  · exact (C37_invariant F R (Or.inl rfl) (.push x :: calls) hc').2
  · exact (C37_invariant F R (Or.inr rfl) (.push x :: calls) hc').2

example : (Call.push [.oid (some ⟨TargetExtOp, some b!"1.3"⟩), .str b!"1.2", .kw TargetCtrl]).Proper
    plainReader := by
  intro o ho
  simp at ho
  subst ho
  exact Or.inr ⟨_, _, rfl, by decide, b!"1.3", by decide +kernel⟩

/-- What one argument offers. -/
def offer (R : DotReader) (k : TargetKeyword) : Arg → Option Str
  | .str s => R.read s
  | .oid o => if isZero o = false ∧ keyword o = some k then some (string o) else none
  | _ => none

theorem offer_iff {R : DotReader} {k : TargetKeyword} {x : Arg}
    (hx : ∀ o, x = .oid o → Made R o) (t : Str) : offer R k x = some t ↔ Offer R k x t := by
  cases x with
  | str s =>
    constructor
    · intro h; exact Or.inl ⟨s, rfl, h⟩
    · rintro (⟨s', e, h⟩ | ⟨o, e, _⟩)
      · injection e with e; subst e; exact h
      · cases e
  | oid o =>
    constructor
    · intro h
      simp only [offer] at h
      split at h
      · next hh =>
        injection h with h
        rcases hx o rfl with hz | ⟨k', t', ho⟩
        · rw [hh.1] at hz; cases hz
        · have hk := (set_not_zero ho).2.2
          rw [hh.2] at hk; injection hk with hk; subst hk
          refine Or.inr ⟨o, rfl, ?_⟩
          rw [← h, (set_not_zero ho).2.1]; exact ho
      · cases h
    · rintro (⟨s', e, h⟩ | ⟨o', e, ho⟩)
      · cases e
      · injection e with e; subst e
        obtain ⟨h1, h2, h3⟩ := set_not_zero ho
        simp [offer, h1, h2, h3]
  | kw _ =>
    constructor
    · intro h; cases h
    · rintro (⟨s', e, h⟩ | ⟨o, e, _⟩) <;> cases e
  | other =>
    constructor
    · intro h; cases h
    · rintro (⟨s', e, h⟩ | ⟨o, e, _⟩) <;> cases e

theorem push_exact {R : DotReader} (F : EqualFold) (x : List Arg)
    (hx : ∀ o, Arg.oid o ∈ x → Made R o) (hkw : ∀ k, Arg.kw k ∉ x) {r : OIDs} (h : Good R r) :
    Good R (r.push F.eq R.read x) ∧ (r.push F.eq R.read x).kw = r.kw ∧
    (∃ os : List ObjectIdentifier, (r.push F.eq R.read x).entries = r.entries ++ os.map Entry.oid) ∧
    dotted (r.push F.eq R.read x).entries
      = (x.filterMap (offer R r.kw)).foldl (addNew (fun a b => a == b)) (dotted r.entries) := by
  induction x generalizing r with
  | nil => exact ⟨h, rfl, ⟨[], by simp [OIDs.push]⟩, rfl⟩
  | cons a x ih =>
    have hxa : ∀ o, a = .oid o → Made R o := by rintro o rfl; exact hx o (by simp)
    have hx' : ∀ o, Arg.oid o ∈ x → Made R o := fun o ho => hx o (by simp [ho])
    have hkw' : ∀ k, Arg.kw k ∉ x := fun k hk => hkw k (by simp [hk])
    have e : r.push F.eq R.read (a :: x) = (r.pushOne F.eq R.read a).push F.eq R.read x := rfl
    rw [e]
    rcases pushOne_cases F h a hxa with ⟨t, o, hof, ho, hnt, he⟩ | ⟨k, rfl, _⟩ | ⟨_, hno, he⟩
    · rw [he]
      obtain ⟨g, hk, ⟨os, hos⟩, hd⟩ := ih hx' hkw' (good_snoc h ho)
      refine ⟨g, hk, ⟨o :: os, by rw [hos]; simp⟩, ?_⟩
      rw [hd, List.filterMap_cons, (offer_iff hxa t).2 hof]
      simp only [List.foldl_cons]
      congr 1
      show dotted (r.entries ++ [.oid o]) = _
      rw [dotted_snoc]
      show (if isZero o then _ else _ ++ [string o]) = _
      rw [(set_not_zero ho).1, (set_not_zero ho).2.1]
      simp [addNew, hnt]
    · exact absurd (by simp) (hkw k)
    · rw [he]
      obtain ⟨g, hk, hos, hd⟩ := ih hx' hkw' h
      refine ⟨g, hk, hos, ?_⟩
      rw [hd, List.filterMap_cons]
      cases ha : offer R r.kw a with
      | none => rfl
      | some t =>
        have := hno t ((offer_iff hxa t).1 ha)
        simp only [List.foldl_cons]
        congr 1
        simp [addNew, this]

/-- What a sequence of arguments stands for, in order. -/
inductive Offers (R : DotReader) (k : TargetKeyword) : List Arg → List Str → Prop
  | nil : Offers R k [] []
  | skip {x : Arg} {xs : List Arg} {ts : List Str} (h : ∀ t, ¬ Offer R k x t)
      (h' : Offers R k xs ts) : Offers R k (x :: xs) ts
  | take {x : Arg} {xs : List Arg} {t : Str} {ts : List Str} (h : Offer R k x t)
      (h' : Offers R k xs ts) : Offers R k (x :: xs) (t :: ts)

theorem offers_filterMap {R : DotReader} {k : TargetKeyword} {x : List Arg} {ts : List Str}
    (hx : ∀ o, Arg.oid o ∈ x → Made R o) (h : Offers R k x ts) : x.filterMap (offer R k) = ts := by
  induction h with
  | nil => rfl
  | @skip a xs ts h h' ih =>
    rw [List.filterMap_cons]
    have : offer R k a = none := by
      cases e : offer R k a with
      | none => rfl
      | some t => exact absurd ((offer_iff (by rintro o rfl; exact hx o (by simp)) t).1 e) (h t)
    rw [this]; exact ih fun o ho => hx o (by simp [ho])
  | @take a xs t ts h h' ih =>
    rw [List.filterMap_cons, (offer_iff (by rintro o rfl; exact hx o (by simp)) t).2 h]
    simp only [ih fun o ho => hx o (by simp [ho])]

theorem push_flatten (eq : Str → Str → Bool) (read : Str → Option Str) (calls : List (List Arg))
    (r : OIDs) : calls.foldl (OIDs.push eq read) r = r.push eq read calls.flatten := by
  induction calls generalizing r with
  | nil => rfl
  | cons c calls ih => simp [ih, OIDs.push]

/-- **C37**, the exact content: when no keywords are pushed, the list keeps its keyword,
holds identifiers only, and their dotted forms are the first occurrences of what the
arguments of all calls stand for, in order. -/
theorem C37_entries (F : EqualFold) (R : DotReader) {k : TargetKeyword}
    (hk : k = TargetCtrl ∨ k = TargetExtOp) (calls : List (List Arg)) {ts : List Str}
    (hx : ∀ o, Arg.oid o ∈ calls.flatten → Made R o) (hkw : ∀ k, Arg.kw k ∉ calls.flatten)
    (ho : Offers R k calls.flatten ts) :
    ∃ os : List ObjectIdentifier,
      calls.foldl (OIDs.push F.eq R.read) ⟨k, []⟩ = ⟨k, os.map Entry.oid⟩ ∧
      os.map string = firsts (fun a b => a == b) ts ∧
      ∀ o ∈ os, ∃ t, Set R o k t := by
  obtain ⟨g, h1, ⟨os, h2⟩, h3⟩ := push_exact F calls.flatten hx hkw (good_empty R hk)
  rw [offers_filterMap hx ho] at h3
  simp only [List.nil_append] at h2
  have hset : ∀ o ∈ os, ∃ t, Set R o k t := by
    intro o ho
    have := g.2 o (by rw [h2]; exact List.mem_map.2 ⟨o, ho, rfl⟩)
    rw [h1] at this; exact this
  refine ⟨os, ?_, ?_, hset⟩
  · rw [push_flatten]
    revert h1 h2
    generalize OIDs.push F.eq R.read ⟨k, []⟩ calls.flatten = r
    intro h1 h2
    cases r; simp_all
  · rw [← foldl_addNew _ (by intro a b c h1 h2; simp_all)]
    rw [h2] at h3
    have : dotted (os.map Entry.oid) = os.map string := by
      unfold dotted
      rw [List.filter_eq_self.2]
      · simp [Function.comp_def, Entry.asOid]
      · intro e he
        obtain ⟨o, ho, rfl⟩ := List.mem_map.1 he
        obtain ⟨t, ht⟩ := hset o ho
        simp [Entry.asOid, (set_not_zero ht).1]
    rw [← this, h3]; simp [dotted]

example : (Ctrls EqualFold.ref.eq plainReader.read
      [.str b!"1.2", .str b!"x", .oid (some ⟨TargetExtOp, some b!"1.3"⟩), .str b!"1.2",
       .oid (some ⟨TargetCtrl, some b!"1.4"⟩)])
    = ⟨TargetCtrl, [.oid (some ⟨TargetCtrl, some b!"1.2"⟩), .oid (some ⟨TargetCtrl, some b!"1.4"⟩)]⟩ := by
  decide +kernel

/-- **C37**, the keyword of a list changes only while it is empty. -/
theorem C37_keyword_kept (F : EqualFold) (R : DotReader) {r : OIDs}
    (hk : r.kw = TargetCtrl ∨ r.kw = TargetExtOp)
    (hg : ∀ o, Entry.oid o ∈ r.entries → ∃ t, Set R o r.kw t) (hne : r.entries ≠ []) (x : List Arg)
    (hx : ∀ o, Arg.oid o ∈ x → Made R o) :
    (r.push F.eq R.read x).kw = r.kw ∧ ∃ es, (r.push F.eq R.read x).entries = r.entries ++ es := by
  have h : Good R r := ⟨hk, hg⟩
  clear hk hg
  induction x generalizing r with
  | nil => exact ⟨rfl, [], by simp [OIDs.push]⟩
  | cons a x ih =>
    have hx' : ∀ o, Arg.oid o ∈ x → Made R o := fun o ho => hx o (by simp [ho])
    have e : r.push F.eq R.read (a :: x) = (r.pushOne F.eq R.read a).push F.eq R.read x := rfl
    rw [e]
    rcases pushOne_cases F h a (by rintro o rfl; exact hx o (by simp)) with
      ⟨t, o, hof, ho, hnt, he⟩ | ⟨k, rfl, he, hk⟩ | ⟨_, hno, he⟩
    · rw [he]
      obtain ⟨h1, es, h2⟩ := ih (r := { r with entries := r.entries ++ [.oid o] }) (by simp) hx' (good_snoc h ho)
      exact ⟨h1, .oid o :: es, by rw [h2]; simp⟩
    · have hk' : (r.pushOne F.eq R.read (.kw k)).kw = r.kw := by
        rcases hk with hk | ⟨h0, _⟩
        · exact hk
        · exact absurd h0 hne
      have hgood : Good R (r.pushOne F.eq R.read (.kw k)) := by
        refine ⟨by rw [hk']; exact h.1, ?_⟩
        rw [he, hk']
        intro o ho
        rcases List.mem_append.1 ho with ho | ho
        · exact h.2 o ho
        · simp at ho
      obtain ⟨h1, es, h2⟩ := ih (r := r.pushOne F.eq R.read (.kw k)) (by rw [he]; simp) hx' hgood
      exact ⟨h1.trans hk', .kw k :: es, by rw [h2, he]; simp⟩
    · rw [he]; exact ih hne hx' h

/-- **C37**, `Contains`: it finds an identifier exactly when its dotted form is in the
list. -/
theorem C37_contains (F : EqualFold) {R : DotReader} {r : OIDs} {k : TargetKeyword} {t : Str}
    {o : ObjectIdentifier} (hk : r.kw = TargetCtrl ∨ r.kw = TargetExtOp)
    (hg : ∀ o, Entry.oid o ∈ r.entries → ∃ t, Set R o r.kw t) (ho : Set R o k t) :
    r.contains F.eq (.oid o) = true ↔ ∃ o', Entry.oid o' ∈ r.entries ∧ string o' = t := by
  rw [contains_dotted F ⟨hk, hg⟩ ho]
  constructor
  · intro h
    obtain ⟨e, he, het⟩ := List.mem_map.1 h
    obtain ⟨he, hz⟩ := List.mem_filter.1 he
    cases e with
    | kw k => cases hz
    | oid o' => exact ⟨o', he, het⟩
  · rintro ⟨o', ho', rfl⟩
    obtain ⟨t', ht'⟩ := hg o' ho'
    exact List.mem_map.2 ⟨.oid o', List.mem_filter.2 ⟨ho', by simp [Entry.asOid, (set_not_zero ht').1]⟩, rfl⟩

/-- **C37.** Of several arguments of `Ctrl` and `ExtOp` the last text or identifier decides: a text
or identifier that can be read gives itself, a text that cannot be read or a zero identifier
gives a zero identifier.  Arguments of other types do nothing, and without any there is none. -/
theorem C37_several (R : DotReader) (x : List Arg) :
    (∀ s, Ctrl R.read (x ++ [.str s]) = Ctrl R.read [.str s] ∧ ExtOp R.read (x ++ [.str s]) = ExtOp R.read [.str s]) ∧
    (∀ o, isZero o = false → Ctrl R.read (x ++ [.oid o]) = Ctrl R.read [.str (string o)] ∧
      ExtOp R.read (x ++ [.oid o]) = ExtOp R.read [.str (string o)]) ∧
    (∀ o, isZero o = true → isZero (Ctrl R.read (x ++ [.oid o])) = true ∧ isZero (ExtOp R.read (x ++ [.oid o])) = true) ∧
    (∀ a, (a = .other ∨ ∃ k, a = .kw k) → Ctrl R.read (x ++ [a]) = Ctrl R.read x ∧ ExtOp R.read (x ++ [a]) = ExtOp R.read x) ∧
    isZero (Ctrl R.read []) = true ∧ isZero (ExtOp R.read []) = true := by
  have snoc : ∀ (k : TargetKeyword) a, newObjectID R.read k (x ++ [a]) =
      let st := setOne R.read (x.foldl (setOne R.read) (none, true)) a
      if st.2 then (⟨k, st.1⟩, true) else (⟨0, st.1⟩, false) := by
    intro k a; simp only [newObjectID, List.foldl_append, List.foldl_cons, List.foldl_nil]
  refine ⟨fun s => ?_, fun o ho => ?_, fun o ho => ?_, fun a ha => ?_, rfl, rfl⟩
  · simp only [Ctrl, ExtOp, snoc]; exact ⟨rfl, rfl⟩
  · simp only [Ctrl, ExtOp, snoc, setOne, ho]; exact ⟨rfl, rfl⟩
  · simp only [Ctrl, ExtOp, snoc, setOne, ho, if_true]
    generalize x.foldl (setOne R.read) (none, true) = st
    obtain ⟨d, b⟩ := st
    cases d <;> exact ⟨rfl, rfl⟩
  · simp only [Ctrl, ExtOp, snoc]
    rcases ha with rfl | ⟨k, rfl⟩ <;> exact ⟨rfl, rfl⟩

example : string (Ctrl plainReader.read [.str b!"x", .str b!"1.2", .other]) = b!"1.2" ∧
    isZero (Ctrl plainReader.read [.str b!"1.2", .oid none]) = true ∧ isZero none = true ∧
    isZero (some ⟨TargetCtrl, some b!"1.2"⟩) = false := by decide +kernel

/-- **C37**, single identifiers: from a text a constructor makes an identifier with the
reading of the text and its own keyword when the text can be read, and otherwise one
that is zero and prints as invalid. -/
theorem C37_single (R : DotReader) (k : TargetKeyword) (hk : k ≠ 0) (s : Str) :
    (∀ t, R.read s = some t → string (OID R.read (.str s) k) = t ∧
      keyword (OID R.read (.str s) k) = some k ∧
      OID R.read (.oid (OID R.read (.str s) k)) k = OID R.read (.str t) k) ∧
    (R.read s = none → isZero (OID R.read (.str s) k) = true ∧
      string (OID R.read (.str s) k) = b!"<invalid_object_identifier>") ∧
    Ctrl R.read [.str s] = OID R.read (.str s) TargetCtrl ∧
    ExtOp R.read [.str s] = OID R.read (.str s) TargetExtOp := by
  refine ⟨?_, ?_, rfl, rfl⟩
  · intro t ht
    have e : OID R.read (.str s) k = some ⟨k, some t⟩ := by rw [OID, newObjectID_str, ht]
    have hs : Set R (OID R.read (.str s) k) k t := ⟨e, hk, s, ht⟩
    obtain ⟨h1, h2, h3⟩ := set_not_zero hs
    refine ⟨h2, h3, ?_⟩
    rw [e] at h1 h2 ⊢
    simp only [OID, newObjectID, List.foldl_cons, List.foldl_nil, setOne, h1, h2,
      Bool.false_eq_true, if_false]
    rfl
  · intro hn
    have e : OID R.read (.str s) k = some ⟨0, none⟩ := by rw [OID, newObjectID_str, hn]
    rw [e]; exact ⟨rfl, rfl⟩

/-! ## C59: values of object identifier rules -/

theorem setValues_eq {R : DotReader} (F : EqualFold) (key : TargetKeyword) (vs : List Str) (r : OIDs) :
    r.setValues F.eq R.read key vs
      = (r.push F.eq R.read ((upToGap (vs.map R.read)).map fun t => .oid (some ⟨key, some t⟩)),
         vs.all fun v => (R.read v).isSome) := by
  induction vs generalizing r with
  | nil => rfl
  | cons v vs ih =>
    rw [OIDs.setValues, newObjectID_str]
    cases hv : R.read v with
    | none => simp [hv, upToGap, OIDs.push]
    | some t =>
      simp only [if_true]
      rw [ih]
      simp [hv, upToGap, OIDs.push]

theorem upToGap_all {l : List (Option Str)} (h : ∀ a ∈ l, a.isSome = true) :
    (upToGap l).map some = l := by
  induction l with
  | nil => rfl
  | cons a l ih =>
    cases a with
    | none => exact absurd (h none (by simp)) (by simp)
    | some t => simp [upToGap, ih fun a ha => h a (by simp [ha])]

theorem mem_upToGap' {α : Type} {l : List (Option α)} {a : α} (h : a ∈ upToGap l) : some a ∈ l := by
  induction l with
  | nil => simp [upToGap] at h
  | cons b l ih =>
    cases b with
    | none => simp [upToGap] at h
    | some b =>
      simp only [upToGap, List.mem_cons] at h
      rcases h with rfl | h
      · simp
      · simp [ih h]

theorem firsts_ne_nil {ts : List Str} (h : firsts (fun a b => a == b) ts = []) : ts = [] := by
  cases ts with
  | nil => rfl
  | cons a l => simp [firsts] at h

/-- **C59** as stated: a rule with object identifiers is refused, or its list holds the
readings of all its values. -/
def ClaimAllValues : Prop :=
  ∀ (F : EqualFold) (R : DotReader) (vs : List Str) (key : TargetKeyword) (r : OIDs),
    key = TargetCtrl ∨ key = TargetExtOp → assertTargetOID F.eq R.read vs key = .ok r →
    ∀ v ∈ vs, ∃ t, R.read v = some t ∧ t ∈ dotted r.entries

/-- What is read from values, exactly: the readings of the values in front of the first
that cannot be read, each once; refused when there are none.  (Missing for C59: the
values from the first unreadable one on are dropped without an error.) -/
theorem C59_values_partial (F : EqualFold) (R : DotReader) (vs : List Str) {key : TargetKeyword}
    (hk : key = TargetCtrl ∨ key = TargetExtOp) :
    (upToGap (vs.map R.read) = [] → assertTargetOID F.eq R.read vs key = .error ()) ∧
    (upToGap (vs.map R.read) ≠ [] → ∃ os : List ObjectIdentifier,
      assertTargetOID F.eq R.read vs key = .ok ⟨key, os.map Entry.oid⟩ ∧
      os.map string = firsts (fun a b => a == b) (upToGap (vs.map R.read)) ∧
      ∀ o ∈ os, ∃ t, Set R o key t) := by
  have hl : oidList key = ⟨key, []⟩ := by
    rcases hk with rfl | rfl <;> rfl
  have hk0 : key ≠ 0 := by rcases hk with rfl | rfl <;> decide
  have hset : ∀ t ∈ upToGap (vs.map R.read), Set R (some ⟨key, some t⟩) key t := by
    intro t ht
    obtain ⟨v, _, hv⟩ := List.mem_map.1 (mem_upToGap' ht)
    exact ⟨rfl, hk0, v, hv⟩
  have hof : Offers R key ((upToGap (vs.map R.read)).map fun t => .oid (some ⟨key, some t⟩))
      (upToGap (vs.map R.read)) := by
    revert hset
    generalize upToGap (vs.map R.read) = ts
    intro hset
    induction ts with
    | nil => exact .nil
    | cons t ts ih =>
      exact .take (Or.inr ⟨_, rfl, hset t (by simp)⟩) (ih fun t ht => hset t (by simp [ht]))
  have hmade : ∀ o, Arg.oid o ∈ [(upToGap (vs.map R.read)).map fun t => Arg.oid (some ⟨key, some t⟩)].flatten →
      Made R o := by
    intro o ho
    simp at ho
    obtain ⟨t, ht, rfl⟩ := ho
    exact Or.inr ⟨key, t, hset t ht⟩
  obtain ⟨os, h1, h2, h3⟩ := C37_entries F R hk [_] (ts := upToGap (vs.map R.read)) hmade
    (by intro k; simp) (by simpa using hof)
  simp only [List.foldl_cons, List.foldl_nil] at h1
  unfold assertTargetOID
  rw [setValues_eq, hl, h1]
  constructor
  · intro hn
    rw [hn] at h2
    have : os = [] := by simpa [firsts] using h2
    subst this
    simp
  · intro hn
    refine ⟨os, ?_, h2, h3⟩
    have hvs : vs ≠ [] := by rintro rfl; exact hn rfl
    have hos : os ≠ [] := by
      rintro rfl
      exact hn (firsts_ne_nil h2.symm)
    simp [hvs, hos]

/-- **C59** when all values can be read: nothing is lost. -/
theorem C59_good_values (F : EqualFold) (R : DotReader) {vs : List Str} {key : TargetKeyword}
    (hk : key = TargetCtrl ∨ key = TargetExtOp) (hne : vs ≠ [])
    (hv : ∀ v ∈ vs, ∃ t, R.read v = some t) :
    ∃ os : List ObjectIdentifier, assertTargetOID F.eq R.read vs key = .ok ⟨key, os.map Entry.oid⟩ ∧
      ∀ t, t ∈ os.map string ↔ ∃ v ∈ vs, R.read v = some t := by
  have hall : (upToGap (vs.map R.read)).map some = vs.map R.read := upToGap_all (by
    intro a ha
    obtain ⟨v, hvv, rfl⟩ := List.mem_map.1 ha
    obtain ⟨t, ht⟩ := hv v hvv
    rw [ht]; rfl)
  have hn : upToGap (vs.map R.read) ≠ [] := by
    intro h
    rw [h] at hall
    exact hne (by simpa using hall.symm)
  obtain ⟨os, h1, h2, _⟩ := (C59_values_partial F R vs hk).2 hn
  refine ⟨os, h1, ?_⟩
  intro t
  rw [h2]
  have hmem : ∀ l : List Str, t ∈ firsts (fun a b => a == b) l ↔ t ∈ l := by
    intro l
    induction l with
    | nil => simp [firsts]
    | cons a l ih =>
      simp only [firsts, List.mem_cons, List.mem_filter, ih, Bool.not_eq_true', beq_eq_false_iff_ne]
      constructor
      · rintro (h | h)
        · exact Or.inl h
        · exact Or.inr h.1
      · rintro (h | h)
        · exact Or.inl h
        · by_cases e : t = a
          · exact Or.inl e
          · exact Or.inr ⟨h, fun e' => e e'.symm⟩
  rw [hmem]
  have : t ∈ upToGap (vs.map R.read) ↔ some t ∈ vs.map R.read := by
    constructor
    · intro h; rw [← hall]; exact List.mem_map.2 ⟨t, h, rfl⟩
    · intro h
      rw [← hall] at h
      obtain ⟨t', h, e⟩ := List.mem_map.1 h
      injection e with e; rw [← e]; exact h
  rw [this]; simp

example : upToGap ([b!"1.2", b!"1.3"].map plainReader.read) = [b!"1.2", b!"1.3"] := by decide +kernel

/-- **C59** fails: after a value that can be read, one that cannot is dropped, and so is
everything behind it. -/
theorem C59_counterexample : ¬ ClaimAllValues := by
  intro h
  obtain ⟨os, h1, h2, _⟩ := (C59_values_partial EqualFold.ref plainReader [b!"1.2", b!"x", b!"1.3"]
    (key := TargetCtrl) (Or.inl rfl)).2 (by decide +kernel)
  obtain ⟨t, ht, _⟩ := h _ _ _ _ _ (Or.inl rfl) h1 b!"x" (by simp)
  revert ht
  rw [show plainReader.read b!"x" = none by decide +kernel]
  simp

end Verif.Oid
