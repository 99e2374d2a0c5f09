import Verif.Spec.Ops
import Verif.Model.Ops
import Verif.Props.Filter
import Verif.Lemmas.Inside

/-!
# C78, C79: attribute filter operations that are refused, left out or kept
-/

namespace Verif.Filter
open Verif Verif.Spec Verif.Misc Verif.Attr

theorem no_amp_cons {a : Byte} {p : Str} (h : ∀ u v, p ≠ u ++ b!"&&" ++ v)
    (ha : ∀ t, p = 38 :: t → a ≠ 38) : ∀ u v, a :: p ≠ u ++ b!"&&" ++ v := by
  intro u v e
  cases u with
  | nil =>
    simp only [List.nil_append, List.cons_append, List.cons.injEq] at e
    exact ha _ e.2 e.1
  | cons x u =>
    simp only [List.cons_append, List.cons.injEq] at e
    exact h u v (by rw [e.2])

theorem cut_split : ∀ t : Str, Cut t (Str.split2 38 38 t)
  | [] => .last (by intro u v e; have := congrArg List.length e; simp at this)
  | [a] => .last (by intro u v e; have := congrArg List.length e; simp at this; omega)
  | a :: b :: t => by
    rw [Str.split2]
    split
    · next h =>
      obtain ⟨rfl, rfl⟩ := h
      exact .more (p := []) (by intro u v e; have := congrArg List.length e; simp at this; omega) (cut_split t)
    · next h =>
      have hc := cut_split (b :: t)
      generalize Str.split2 38 38 (b :: t) = ps at hc
      generalize hbt : b :: t = bt at hc
      cases hc with
      | last hp =>
        refine .last (no_amp_cons hp ?_)
        intro s e ha
        rw [e] at hbt
        injection hbt with e _
        exact h ⟨ha, e⟩
      | @more p rest ps hp hc =>
        have e := hbt
        show Cut _ ((a :: p) :: ps)
        rw [show a :: (p ++ b!"&&" ++ rest) = (a :: p) ++ b!"&&" ++ rest from rfl]
        refine .more ?_ hc
        refine no_amp_cons (p := p ++ b!"&") hp ?_
        intro s es ha
        cases p with
        | nil =>
          injection e with e _
          exact h ⟨ha, e⟩
        | cons x p =>
          injection e with e _
          injection es with es _
          exact h ⟨ha, e.trans es⟩

theorem split_cut {t : Str} {ps : List Str} (h : Cut t ps) : Str.split2 38 38 t = ps := by
  have single : ∀ p : Str, (∀ u v, p ≠ u ++ b!"&&" ++ v) → Str.split2 38 38 p = [p] := by
    intro p
    induction p with
    | nil => intro _; rfl
    | cons a p ih =>
      intro h
      cases p with
      | nil => rfl
      | cons b p =>
        rw [Str.split2, if_neg, ih]
        · rfl
        · intro u v e; exact h (a :: u) v (by rw [e]; rfl)
        · rintro ⟨rfl, rfl⟩; exact h [] p rfl
  have sep : ∀ p rest : Str, (∀ u v, p ++ b!"&" ≠ u ++ b!"&&" ++ v) →
      Str.split2 38 38 (p ++ b!"&&" ++ rest) = p :: Str.split2 38 38 rest := by
    intro p rest
    induction p with
    | nil =>
      intro _
      show Str.split2 38 38 (38 :: 38 :: rest) = _
      rw [Str.split2, if_pos ⟨rfl, rfl⟩]
    | cons a p ih =>
      intro h
      have hp : ∀ u v, p ++ b!"&" ≠ u ++ b!"&&" ++ v := fun u v e => h (a :: u) v (by
        rw [List.cons_append, e]; rfl)
      have hi := ih hp
      cases p with
      | nil =>
        show Str.split2 38 38 (a :: 38 :: 38 :: rest) = _
        have ha : a ≠ 38 := fun e => h [] [] (by rw [e]; rfl)
        rw [Str.split2, if_neg (by rintro ⟨e, _⟩; exact ha e)]
        rw [show Str.split2 38 38 (38 :: 38 :: rest) = _ from hi]
        rfl
      | cons b p =>
        show Str.split2 38 38 (a :: b :: (p ++ b!"&&" ++ rest)) = _
        rw [Str.split2, if_neg]
        · rw [show Str.split2 38 38 (b :: (p ++ b!"&&" ++ rest)) = _ from hi]; rfl
        · rintro ⟨rfl, rfl⟩; exact h [] (p ++ b!"&") rfl
  induction h with
  | last h => exact single _ h
  | more h _ ih => rw [sep _ _ h, ih]

/-! ## C78 -/

theorem parseSeq_ok (seq : List Str) (afo r : AFO) :
    parseSeq afo seq = .ok r ↔ ∃ ps : List Pair, seq.map Str.trimSpace = ps.map pairText ∧
      (∀ p ∈ ps, AttrName p.1) ∧ r = afo.push (ps.map fun p => .af (ofPair p)) := by
  induction seq generalizing afo with
  | nil =>
    constructor
    · intro h
      cases h
      exact ⟨[], rfl, by simp, rfl⟩
    · rintro ⟨ps, h, _, rfl⟩
      cases ps with
      | nil => rfl
      | cons => cases h
  | cons s seq ih =>
    rw [parseSeq]
    constructor
    · intro h
      cases hp : parseAttributeFilter (Str.trimSpace s) with
      | error e => rw [hp] at h; cases h
      | ok af =>
        rw [hp] at h
        obtain ⟨a, f, e, ha, rfl⟩ := ((C40_read_partial _ af).1).1 hp
        obtain ⟨ps, h1, h2, h3⟩ := (ih _).1 h
        refine ⟨(a, f) :: ps, ?_, ?_, ?_⟩
        · simp only [List.map_cons, h1, e]; rfl
        · intro p hp
          rcases List.mem_cons.1 hp with rfl | hp
          · exact ha
          · exact h2 p hp
        · rw [h3]; rfl
    · rintro ⟨ps, h1, h2, rfl⟩
      cases ps with
      | nil => cases h1
      | cons p ps =>
        simp only [List.map_cons, List.cons.injEq] at h1
        have hp : parseAttributeFilter (Str.trimSpace s) = .ok (ofPair p) := by
          rw [h1.1]; exact parse_pair (h2 p (by simp)) p.2
        rw [hp]
        exact (ih _).2 ⟨ps, h1.2, fun q hq => h2 q (by simp [hq]), rfl⟩

theorem picks_filter (ps : List Pair) (h : ∀ p ∈ ps, AttrName p.1) :
    Picks Offer (ps.map fun p => AFOArg.af (ofPair p)) (withFilter ps) := by
  induction ps with
  | nil => exact .nil
  | cons p ps ih =>
    have ih := ih fun q hq => h q (by simp [hq])
    have hp := Uri.attrName_ne_nil (h p (by simp))
    by_cases hf : p.2 = []
    · have e : withFilter (p :: ps) = withFilter ps := by simp [withFilter, hf]
      rw [e]
      refine .skip ?_ ih
      rintro q (⟨h1, _⟩ | ⟨h1, _, h3⟩)
      · cases h1
      · injection h1 with h1
        injection h1 with h1
        injection h1 with _ h1
        injection h1 with h1
        exact h3 (h1.symm.trans hf)
    · have e : withFilter (p :: ps) = p :: withFilter ps := by simp [withFilter, hf]
      rw [e]
      exact .take (Or.inr ⟨rfl, hp, hf⟩) ih

theorem afo_pairs (delete : Bool) (ps : List Pair) (h : ∀ p ∈ ps, AttrName p.1) :
    ((opOf delete).afo []).push (ps.map fun p => .af (ofPair p))
      = opWith delete (firsts samePair (withFilter ps)) := by
  have h1 := C41_content (opOf delete) (ps.map fun p => AFOArg.af (ofPair p)) [] (ps := withFilter ps)
    (by simpa using picks_filter ps h)
  have e : ((opOf delete).afo []).push (ps.map fun p => .af (ofPair p))
      = (opOf delete).afo (ps.map fun p => .af (ofPair p)) := by
    simp [AttributeOperation.afo, AFO.push]
  rw [e]
  have h2 := push_cat (x := ps.map fun p => AFOArg.af (ofPair p)) (by
    intro o ho
    obtain ⟨p, _, hp⟩ := List.mem_map.1 ho
    cases hp) { mkAFO [] with cat := AttributeOperation.makeLabel (opOf delete) }
  show AFO.mk _ _ = AFO.mk _ _
  congr

theorem preamble_ok (t : Str) (o : AttributeOperation) (rest : Str) :
    parsePreamble t = .ok (o, rest) ↔ ∃ delete, o = opOf delete ∧ t = opWord delete ++ rest := by
  have pre : ∀ (w : Str), Str.hasPrefix t w = true ↔ ∃ r, t = w ++ r := fun _ => Str.hasPrefix_iff
  unfold parsePreamble
  constructor
  · intro h
    split at h
    · next h1 =>
      obtain ⟨r, e⟩ := (pre _).1 h1
      cases h
      exact ⟨false, rfl, by rw [e]; rfl⟩
    · split at h
      · next h1 =>
        obtain ⟨r, e⟩ := (pre _).1 h1
        cases h
        exact ⟨true, rfl, by rw [e]; rfl⟩
      · cases h
  · rintro ⟨delete, rfl, rfl⟩
    cases delete
    · simp [opWord, opOf, Str.hasPrefix]
    · simp [opWord, opOf, Str.hasPrefix]

/-- **C78.** A text is read as an operation exactly when it is the word of an operation and
pairs of an attribute name and a filter between `&&`; the operation holds these pairs, each
once and in their order, but those without filter are left out. Missing: a pair without filter should be
refused. -/
theorem C78_read_partial (raw : Str) (r : AFO) :
    parseAFO raw = .ok r ↔ ∃ t delete ps, Spec.Inside raw t ∧ Says t delete ps ∧
      r = opWith delete (firsts samePair (withFilter ps)) := by
  simp only [inside_iff, exists_and_left, exists_eq_left']
  unfold parseAFO
  simp only
  generalize unquote (condenseWHSP raw) = t
  constructor
  · intro h
    split at h
    · cases h
    · cases hp : parsePreamble t with
      | error e => rw [hp] at h; cases h
      | ok q =>
        obtain ⟨o, rest⟩ := q
        rw [hp] at h
        obtain ⟨delete, rfl, e⟩ := (preamble_ok t o rest).1 hp
        obtain ⟨ps, h1, h2, rfl⟩ := (parseSeq_ok _ _ _).1 h
        exact ⟨delete, ps, ⟨rest, _, e, cut_split _, h1, h2⟩, afo_pairs delete ps h2⟩
  · rintro ⟨delete, ps, ⟨rest, pieces, e, hc, h1, h2⟩, rfl⟩
    have hs := split_cut hc
    have hlen : ¬ t.length < 5 := by
      have h4 : 4 ≤ (opWord delete).length := by cases delete <;> decide
      have : rest ≠ [] := by
        rintro rfl
        cases ps with
        | nil =>
          have := List.map_eq_nil_iff.1 h1
          subst this
          rw [show Str.trimSpace [] = [] from rfl] at hs
          cases hs
        | cons p ps =>
          rw [← hs] at h1
          have e' : Str.split2 38 38 (Str.trimSpace []) = [[]] := rfl
          rw [e'] at h1
          injection h1 with h1 _
          have := congrArg List.length h1
          simp [pairText] at this
          have e0 : (Str.trimSpace []).length = 0 := rfl
          omega
      have := List.length_pos_iff.2 this
      rw [e, List.length_append]
      omega
    rw [if_neg hlen, (preamble_ok t (opOf delete) rest).2 ⟨delete, rfl, e⟩]
    show parseSeq _ _ = _
    rw [hs, ← afo_pairs delete ps h2]
    exact (parseSeq_ok _ _ _).2 ⟨ps, h1, h2, rfl⟩

/-- **C78**, the full claim: every pair of the text has a filter, and is in the operation. -/
def NothingLeftOut : Prop :=
  ∀ raw r, parseAFO raw = .ok r → ∃ t delete ps, ps ≠ [] ∧ (∀ p ∈ ps, p.2 ≠ []) ∧
    Spec.Inside raw t ∧ Says t delete ps ∧ r = opWith delete (firsts samePair ps)

/-- **C78** does not hold: `add=cn:` is read, as an operation without filters. -/
theorem C78_counterexample : ¬ NothingLeftOut := by
  intro h
  have hr : parseAFO b!"add=cn:" = .ok (opWith false []) := by rfl
  obtain ⟨t, delete, ps, hne, hf, _, _, e⟩ := h _ _ hr
  have := congrArg AFO.entries e
  cases ps with
  | nil => exact hne rfl
  | cons p ps => simp [opWith, firsts] at this

example : parseAFO b!" delete= cn:(a=b) && sn: &&cn:(a=b)" = .ok (opWith true [(b!"cn", b!"(a=b)")]) := by
  refine (C78_read_partial _ _).2 ⟨_, true, [(b!"cn", b!"(a=b)"), (b!"sn", []), (b!"cn", b!"(a=b)")], inside_of _, ?_, by decide⟩
  refine ⟨b!" cn:(a=b) && sn: &&cn:(a=b)", [b!"cn:(a=b) ", b!" sn: ", b!"cn:(a=b)"], by decide +kernel, ?_,
    by decide +kernel, ?_⟩
  · have := cut_split (Str.trimSpace b!" cn:(a=b) && sn: &&cn:(a=b)")
    have e : Str.split2 38 38 (Str.trimSpace b!" cn:(a=b) && sn: &&cn:(a=b)")
      = [b!"cn:(a=b) ", b!" sn: ", b!"cn:(a=b)"] := by decide +kernel
    rwa [e] at this
  · intro p hp
    simp at hp
    rcases hp with rfl | rfl | rfl
    · exact cn_name
    · exact sn_name
    · exact cn_name

/-! ### Lists of operations -/

theorem count_occ {w : Str} {c : Byte} {w' : Str} (hw : w = c :: w') (hc : c ∉ w') (s : Str) :
    countStr s w = occ w s := by
  have skip : ∀ (n : Nat) (u v : Str), u.length = n → countGo w n (u ++ v) = countGo w 0 v := by
    intro n
    induction n with
    | zero => intro u v h; rw [List.length_eq_zero_iff.1 h]; rfl
    | succ n ih =>
      intro u v h
      cases u with
      | nil => cases h
      | cons a u => rw [List.cons_append, countGo]; exact ih u v (by simpa using h)
  have none_in : ∀ (u v : Str), c ∉ u → occ w (u ++ v) = occ w v := by
    intro u v
    induction u with
    | nil => intro _; rfl
    | cons a u ih =>
      intro h
      rw [List.cons_append, occ, if_neg, Nat.zero_add]
      · exact ih fun hm => h (by simp [hm])
      · intro hp
        rw [hw] at hp
        simp only [List.isPrefixOf, Bool.and_eq_true, beq_iff_eq] at hp
        exact h (by simp [hp.1])
  have main : ∀ (n : Nat) (s : Str), s.length ≤ n → countGo w 0 s = occ w s := by
    intro n
    induction n with
    | zero => intro s h; rw [List.length_eq_zero_iff.1 (Nat.le_zero.1 h)]; rfl
    | succ n ih =>
      intro s h
      cases s with
      | nil => rfl
      | cons a t =>
        rw [countGo, occ]
        by_cases hp : Str.hasPrefix (a :: t) w = true
        · obtain ⟨r, e⟩ := Str.hasPrefix_iff.1 hp
          have e' : t = w' ++ r := by rw [hw] at e; injection e
          rw [if_pos hp, if_pos (by rw [List.isPrefixOf_iff_prefix, e]; exact ⟨r, rfl⟩)]
          rw [e', skip _ w' r (by simp [hw]), none_in w' r hc, ih r]
          rw [e'] at h
          simp at h
          omega
        · rw [if_neg hp, if_neg, Nat.zero_add, ih t (by simpa using h)]
          rw [List.isPrefixOf_iff_prefix]
          rintro ⟨r, e⟩
          exact hp (Str.hasPrefix_iff.2 ⟨r, e.symm⟩)
  exact main s.length s (Nat.le_refl _)

theorem pushAFO_addNew (es : List AFO) (a : AFO) :
    pushAFO es a = (withEntries [a]).foldl (addNew sameOp) es := by
  unfold pushAFO withEntries containsText
  by_cases h : a.entries = []
  · simp [h]
  · have : a.entries.length > 0 := List.length_pos_iff.2 h
    simp [h, addNew, sameOp, List.any_map, Function.comp_def, this]

theorem fold_step (es : List AFO) (a : AFO) (os : List AFO) :
    (withEntries (a :: os)).foldl (addNew sameOp) es = (withEntries os).foldl (addNew sameOp) (pushAFO es a) := by
  rw [pushAFO_addNew, ← List.foldl_append]
  unfold withEntries
  rw [← List.filter_append]
  rfl

theorem sameOp_trans (a b c : AFO) (h1 : sameOp a b = true) (h2 : sameOp b c = true) : sameOp a c = true := by
  simp only [sameOp, beq_iff_eq] at *
  exact h1.trans h2

theorem prefix_word (v : Str) : hasAFOPrefix v = true ↔ ∃ delete rest, v = opWord delete ++ rest := by
  unfold hasAFOPrefix
  constructor
  · intro h
    split at h
    · next h1 => obtain ⟨x, e⟩ := Str.hasPrefix_iff.1 h1; exact ⟨false, x, e⟩
    · obtain ⟨x, e⟩ := Str.hasPrefix_iff.1 h; exact ⟨true, x, e⟩
  · rintro ⟨delete, rest, rfl⟩
    cases delete
    · rw [if_pos (Str.hasPrefix_iff.2 ⟨rest, rfl⟩ : Str.hasPrefix (opWord false ++ rest) b!"add=" = true)]
    · rw [if_neg (by simp [opWord, Str.hasPrefix])]
      exact Str.hasPrefix_iff.2 ⟨rest, rfl⟩

theorem parseVals_ok (vals : List Str) (r r' : AFOs) :
    parseVals r vals = .ok r' ↔ ∃ os : List AFO,
      vals.map (fun v => parseAFO (unquote (condenseWHSP v))) = os.map Except.ok ∧
      (∀ v ∈ vals, ∃ delete rest, unquote (condenseWHSP v) = opWord delete ++ rest) ∧
      r' = ⟨r.delim, (withEntries os).foldl (addNew sameOp) r.entries⟩ := by
  have pre := prefix_word
  induction vals generalizing r with
  | nil =>
    constructor
    · intro h; cases h; exact ⟨[], rfl, by simp, rfl⟩
    · rintro ⟨os, h, _, rfl⟩
      cases os with
      | nil => rfl
      | cons => cases h
  | cons v vals ih =>
    rw [parseVals]
    constructor
    · intro h
      split at h
      · next hp =>
        cases ha : parseAFO (unquote (condenseWHSP v)) with
        | error e => rw [ha] at h; cases h
        | ok a =>
          rw [ha] at h
          obtain ⟨os, h1, h2, h3⟩ := (ih _).1 h
          refine ⟨a :: os, by simp [ha, h1], ?_, ?_⟩
          · intro x hx
            rcases List.mem_cons.1 hx with rfl | hx
            · exact (pre _).1 hp
            · exact h2 x hx
          · rw [h3, fold_step]; rfl
      · cases h
    · rintro ⟨os, h1, h2, rfl⟩
      cases os with
      | nil => cases h1
      | cons a os =>
        simp only [List.map_cons, List.cons.injEq] at h1
        rw [if_pos ((pre _).2 (h2 v (by simp))), h1.1]
        refine (ih _).2 ⟨os, h1.2, fun x hx => h2 x (by simp [hx]), ?_⟩
        rw [fold_step]; rfl

theorem parseAFOs_ok (raw : Str) (delim : Int) (r : AFOs) :
    parseAFOs raw delim = .ok r ↔ ∃ os : List AFO,
      (Str.split1 (afosDelim delim) raw).map (fun v => parseAFO (unquote (condenseWHSP v))) = os.map Except.ok ∧
      (∀ v ∈ Str.split1 (afosDelim delim) raw, ∃ delete rest, unquote (condenseWHSP v) = opWord delete ++ rest) ∧
      occ b!"add=" raw + occ b!"delete=" raw = os.length ∧ r = ⟨44, firsts sameOp (withEntries os)⟩ := by
  have hne : Str.split1 (afosDelim delim) raw ≠ [] := by
    cases raw with
    | nil => simp [Str.split1]
    | cons a t =>
      rw [Str.split1]
      split
      · simp
      · cases Str.split1 (afosDelim delim) t <;> simp [Str.consHead]
  have c1 : countStr raw b!"add=" = occ b!"add=" raw := count_occ rfl (by decide) raw
  have c2 : countStr raw b!"delete=" = occ b!"delete=" raw := count_occ rfl (by decide) raw
  unfold parseAFOs
  simp only [c1, c2]
  constructor
  · intro h
    split at h
    · cases h
    · split at h
      · cases h
      · next hc =>
        obtain ⟨os, h1, h2, h3⟩ := (parseVals_ok _ _ _).1 h
        refine ⟨os, h1, h2, ?_, ?_⟩
        · have := congrArg List.length h1
          simp only [List.length_map] at this
          omega
        · rw [h3, ← foldl_addNew _ sameOp_trans]; rfl
  · rintro ⟨os, h1, h2, h3, rfl⟩
    have hl := congrArg List.length h1
    simp only [List.length_map] at hl
    have hp := List.length_pos_iff.2 hne
    rw [if_neg (by omega), if_neg (by omega)]
    refine (parseVals_ok _ _ _).2 ⟨os, h1, h2, ?_⟩
    rw [← foldl_addNew _ sameOp_trans]; rfl

theorem readsEach_iff (vs : List Str) (os : List AFO) : ReadsEach vs os ↔
    vs.map (fun v => parseAFO (unquote (condenseWHSP v))) = os.map Except.ok ∧
    ∀ v ∈ vs, ∃ delete rest, unquote (condenseWHSP v) = opWord delete ++ rest := by
  constructor
  · intro h
    induction h with
    | nil => exact ⟨rfl, by simp⟩
    | cons v o vs os h _ ih =>
      obtain ⟨t, t', delete, ps, h1, h2, h3, h4, h5⟩ := h
      rw [inside_iff] at h1
      subst h1
      refine ⟨?_, ?_⟩
      · rw [List.map_cons, List.map_cons, ih.1,
          (C78_read_partial _ _).2 ⟨t', delete, ps, h3, h4, h5⟩]
      · intro x hx
        rcases List.mem_cons.1 hx with rfl | hx
        · exact h2
        · exact ih.2 x hx
  · rintro ⟨h1, h2⟩
    induction vs generalizing os with
    | nil =>
      cases os with
      | nil => exact .nil
      | cons o os => cases h1
    | cons v vs ih =>
      cases os with
      | nil => cases h1
      | cons o os =>
        rw [List.map_cons, List.map_cons, List.cons.injEq] at h1
        obtain ⟨t', delete, ps, h3, h4, h5⟩ := (C78_read_partial _ _).1 h1.1
        exact .cons v o vs os ⟨_, t', delete, ps, inside_of v, h2 v (by simp), h3, h4, h5⟩
          (ih os h1.2 fun x hx => h2 x (by simp [hx]))

/-- **C78** for lists: a text is read exactly when the words `add=` and `delete=` occur in it
once for every piece between delimiters, and every piece begins with such a word and can be
read; the list holds the operations of the pieces, each once and in their order, but those
without filters are left out. Missing: pairs without filter
should be refused, and words of operations inside of filters should not count. -/
theorem C78_list_partial (raw : Str) (delim : Int) (r : AFOs) :
    parseAFOs raw delim = .ok r ↔ ∃ os : List AFO,
      ReadsEach (Str.split1 (if delim = 1 then 59 else 44) raw) os ∧
      occ b!"add=" raw + occ b!"delete=" raw = os.length ∧ r = ⟨44, firsts sameOp (withEntries os)⟩ := by
  rw [parseAFOs_ok]
  have e : afosDelim delim = if delim = 1 then 59 else 44 := by
    rfl
  rw [e]
  simp only [readsEach_iff, and_assoc]

example : (parseAFOs b!"add=cn:(a=b),delete=sn:" 0).toOption = some ⟨44, [opWith false [(b!"cn", b!"(a=b)")]]⟩ := by
  decide +kernel

/-! ### Lists that were built -/

/-- A call on a list of operations. -/
inductive LCall where
  | push (xs : List AFOsArg)
  | pop
  | delimiter (i : List Int)

/-- The list after a call. -/
def LCall.run (r : AFOs) : LCall → AFOs
  | .push xs => r.push xs
  | .pop => r.pop.1
  | .delimiter i => r.setDelimiter i

/-- Every operation has a filter, and no text is there twice. -/
def Kept (es : List AFO) : Prop := (∀ o ∈ es, o.entries ≠ []) ∧ (es.map AFO.string).Nodup

theorem kept_push {es : List AFO} (h : Kept es) (a : AFO) : Kept (pushAFO es a) := by
  unfold pushAFO
  split
  · exact h
  · next hc =>
    split
    · next hl =>
      refine ⟨?_, ?_⟩
      · intro o ho
        rcases List.mem_append.1 ho with ho | ho
        · exact h.1 o ho
        · rw [List.mem_singleton.1 ho]; exact List.length_pos_iff.1 hl
      · rw [List.map_append, List.nodup_append]
        refine ⟨h.2, by simp, ?_⟩
        rintro x hx y hy rfl
        rw [List.map_singleton, List.mem_singleton] at hy
        subst hy
        exact hc (List.any_eq_true.2 ⟨_, hx, by simp⟩)
    · exact h

theorem accept_push (es : List AFO) (x : AFOsArg) :
    (∃ a, x = .afo a ∧ acceptAFO es x = some a ∧ pushAFO es a = es ++ [a]) ∨ acceptAFO es x = none := by
  unfold acceptAFO
  split
  · exact Or.inr rfl
  · next hc =>
    cases x with
    | str s => exact Or.inr rfl
    | other => exact Or.inr rfl
    | afo a =>
      simp only
      split
      · next hl =>
        refine Or.inl ⟨a, rfl, rfl, ?_⟩
        unfold pushAFO
        rw [if_neg (show ¬containsText (es.map AFO.string) a.string = true from hc), if_pos hl]
      · exact Or.inr rfl

theorem kept_make (stop : Bool) (xs : List AFOsArg) : ∀ es, Kept es → Kept (stackPush stop acceptAFO es xs) := by
  induction xs with
  | nil => exact fun _ h => h
  | cons x xs ih =>
    intro es h
    rw [stackPush]
    rcases accept_push es x with ⟨a, _, h2, h3⟩ | h2
    · rw [h2]
      simp only
      refine ih _ ?_
      rw [← h3]; exact kept_push h a
    · rw [h2]
      simp only
      split
      · exact h
      · exact ih _ h

/-- **C78.** After `AFOs` with any arguments and any history of calls, every operation in the
list has a filter, and no two of them have the same text. -/
theorem C78_kept (stop : Bool) (xs : List AFOsArg) (h : List LCall) :
    Kept (h.foldl LCall.run (makeAFOs stop xs)).entries := by
  have key : ∀ (h : List LCall) (r : AFOs), Kept r.entries → Kept (h.foldl LCall.run r).entries := by
    intro h
    induction h with
    | nil => exact fun _ h => h
    | cons c h ih =>
      intro r hr
      refine ih _ ?_
      cases c with
      | delimiter i => cases i <;> exact hr
      | pop =>
        refine ⟨fun o ho => hr.1 o (List.dropLast_subset _ ho), ?_⟩
        have hs := hr.2
        rcases List.eq_nil_or_concat r.entries with e | ⟨l, x, e⟩
        · simp [LCall.run, AFOs.pop, e]
        · rw [e] at hs
          simp only [LCall.run, AFOs.pop, e, List.concat_eq_append, List.dropLast_concat]
          simp only [List.concat_eq_append, List.map_append, List.nodup_append] at hs
          exact hs.1
      | push xs =>
        show Kept (xs.foldl AFOs.push1 r).entries
        induction xs generalizing r with
        | nil => exact hr
        | cons x xs ihx =>
          refine ihx _ ?_
          cases x with
          | other => exact hr
          | afo a => exact kept_push hr a
          | str s =>
            rw [AFOs.push1]
            split
            · exact hr
            · split
              · exact kept_push hr _
              · exact hr
  exact key h _ (kept_make stop xs [] ⟨by simp, by simp⟩)

/-- **C78.** `Contains` tells whether an operation with this text is in the list. -/
theorem C78_contains (r : AFOs) (x : AFOsArg) : AFOs.contains r.entries x = true ↔
    ∃ o ∈ r.entries, (x = .str o.string ∨ ∃ a, x = .afo a ∧ a.string = o.string) := by
  cases x with
  | other => simp [AFOs.contains]
  | str s =>
    show (r.entries.map AFO.string).any _ = true ↔ _
    rw [List.any_map, List.any_eq_true]
    constructor
    · rintro ⟨o, ho, h⟩
      exact ⟨o, ho, Or.inl (congrArg _ (by simpa using h : o.string = s).symm)⟩
    · rintro ⟨o, ho, h | ⟨a, h, _⟩⟩
      · exact ⟨o, ho, by injection h with h; simp [h]⟩
      · cases h
  | afo a =>
    show (r.entries.map AFO.string).any _ = true ↔ _
    rw [List.any_map, List.any_eq_true]
    constructor
    · rintro ⟨o, ho, h⟩
      exact ⟨o, ho, Or.inr ⟨a, rfl, (by simpa using h : o.string = a.string).symm⟩⟩
    · rintro ⟨o, ho, h | ⟨a', h, h'⟩⟩
      · cases h
      · exact ⟨o, ho, by injection h with h; simp [h, h']⟩

example : ([LCall.push [.str b!"add=cn:(a=b)", .str b!"add=cn:", .afo (opWith false [(b!"cn", b!"(a=b)")]),
      .str b!"delete=sn:(a=b)"], .pop].foldl LCall.run (makeAFOs true [])).entries
    = [opWith false [(b!"cn", b!"(a=b)")]] := by decide +kernel

theorem delim_run (h : List LCall) (r : AFOs) (hh : ∀ c ∈ h, ∀ i, c ≠ .delimiter i) :
    (h.foldl LCall.run r).delim = r.delim := by
  induction h generalizing r with
  | nil => rfl
  | cons c h ih =>
    rw [List.foldl_cons, ih _ (fun c hc => hh c (List.mem_cons_of_mem _ hc))]
    cases c with
    | delimiter i => exact absurd rfl (hh _ List.mem_cons_self i)
    | pop => rfl
    | push xs =>
      show (xs.foldl AFOs.push1 r).delim = r.delim
      clear hh ih
      induction xs generalizing r with
      | nil => rfl
      | cons x xs ihx =>
        rw [List.foldl_cons, ihx]
        cases x with
        | other => rfl
        | afo a => rfl
        | str s =>
          rw [AFOs.push1]
          split
          · rfl
          · split <;> rfl

/-- **C60**: the last call of `SetDelimiter` decides, whatever was called before and after: operations are printed with
a semicolon between them if its first argument is 1, and with a comma otherwise.  Without such a call it is the
comma. -/
theorem C60_last (stop : Bool) (xs : List AFOsArg) (h h' : List LCall) (hh : ∀ c ∈ h', ∀ i, c ≠ .delimiter i) :
    (∀ is, ((h ++ .delimiter (1 :: is) :: h').foldl LCall.run (makeAFOs stop xs)).string =
      Str.join b!";" (((h ++ .delimiter (1 :: is) :: h').foldl LCall.run (makeAFOs stop xs)).entries.map AFO.string)) ∧
    (∀ i is, i ≠ 1 → ((h ++ .delimiter (i :: is) :: h').foldl LCall.run (makeAFOs stop xs)).string =
      Str.join b!"," (((h ++ .delimiter (i :: is) :: h').foldl LCall.run (makeAFOs stop xs)).entries.map AFO.string)) ∧
    ((h ++ .delimiter [] :: h').foldl LCall.run (makeAFOs stop xs)).string =
      Str.join b!"," (((h ++ .delimiter [] :: h').foldl LCall.run (makeAFOs stop xs)).entries.map AFO.string) ∧
    (h'.foldl LCall.run (makeAFOs stop xs)).string =
      Str.join b!"," ((h'.foldl LCall.run (makeAFOs stop xs)).entries.map AFO.string) := by
  have key : ∀ (r : AFOs) (d : Byte), r.delim = d → r.string = Str.join [d] (r.entries.map AFO.string) := by
    rintro r d rfl; rfl
  refine ⟨fun is => key _ _ ?_, fun i is hi => key _ _ ?_, key _ _ ?_, key _ _ ?_⟩
  · rw [List.foldl_append, List.foldl_cons, delim_run h' _ hh]; rfl
  · rw [List.foldl_append, List.foldl_cons, delim_run h' _ hh]
    simp only [LCall.run, AFOs.setDelimiter, if_neg hi]
  · rw [List.foldl_append, List.foldl_cons, delim_run h' _ hh]; rfl
  · rw [delim_run h' _ hh]; rfl

example : ([LCall.delimiter [], .delimiter [1], .push [.str b!"add=cn:(a=b)", .str b!"delete=sn:(a=b)"]].foldl LCall.run
    (makeAFOs true [])).string = b!"add=cn:(a=b);delete=sn:(a=b)" ∧
    ∀ c ∈ [LCall.push [.str b!"add=cn:(a=b)", .str b!"delete=sn:(a=b)"]], ∀ i, c ≠ .delimiter i :=
  ⟨by decide +kernel, by simp⟩

end Verif.Filter
