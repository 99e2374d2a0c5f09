import Verif.Props.InsBack

/-!
# Lists of instructions and their texts (C132)
-/

namespace Verif.ListText
open Verif Verif.Spec Verif.Bind Verif.Rules Verif.PB Verif.Whole Verif.Back

/-- `ls` are the lines of `s`: they hold no line feed, and there is one between each two. -/
inductive Lines : Str → List Str → Prop
  | last (s : Str) : (10 : Byte) ∉ s → Lines s [s]
  | more (s t : Str) (ls : List Str) : (10 : Byte) ∉ s → Lines t ls → Lines (s ++ 10 :: t) (s :: ls)

/-- **C132**, the full claim: the lines of the text of a list are the texts of its instructions, so that lists with
one text have the same instructions, as far as these show in their texts. -/
def LineByLine : Prop :=
  ∀ (w : World) (es : List Ins.Instruction), es ≠ [] → (∀ e ∈ es, e ≠ none) →
    Lines (Ins.listString w es) (es.map (Ins.string w))

/-- **C132**, the full claim for two lists. -/
def TextTells : Prop :=
  ∀ (w : World) (es fs : List Ins.Instruction), (∀ e ∈ es ++ fs, e ≠ none) → Ins.listString w es = Ins.listString w fs →
    es.map (Ins.string w) = fs.map (Ins.string w)

/-! ## What holds -/

theorem lines_join {l : List Str} (hl : l ≠ []) (h : ∀ s ∈ l, (10 : Byte) ∉ s) : Lines (Str.join [10] l) l := by
  induction l with
  | nil => exact absurd rfl hl
  | cons a l ih =>
    cases l with
    | nil => exact .last a (h a (by simp))
    | cons b l =>
      have := ih (by simp) fun s hs => h s (List.mem_cons_of_mem _ hs)
      rw [Str.join, List.append_assoc]
      exact .more a _ _ (h a (by simp)) this

theorem lines_split {s : Str} {ls : List Str} (h : Lines s ls) : ls = Str.split1 10 s := by
  induction h with
  | last s h => exact (Str.split1_of_not_mem h).symm
  | more s t ls h _ ih => rw [Str.split1_append h, ih]

/-- **C132** for instructions whose texts hold no line feed: one line for each.  Missing: the others, which have
several lines. -/
theorem C132_lines_partial (w : World) (es : List Ins.Instruction) (hn : es ≠ [])
    (h : ∀ e ∈ es, (10 : Byte) ∉ Ins.string w e) :
    Lines (Ins.listString w es) (es.map (Ins.string w)) ∧
    ∀ ls, Lines (Ins.listString w es) ls → ls = es.map (Ins.string w) := by
  have key : Lines (Ins.listString w es) (es.map (Ins.string w)) := by
    refine lines_join (by simpa using hn) ?_
    simpa using h
  exact ⟨key, fun ls hl => (lines_split hl).trans (lines_split key).symm⟩

/-- **C132** for two lists of such instructions: if they have one text, they have the same texts in the same order. Missing: instructions whose text has several lines. -/
theorem C132_tells_partial (w : World) (es fs : List Ins.Instruction) (hz : ∀ e ∈ es ++ fs, e ≠ none)
    (h : ∀ e ∈ es ++ fs, (10 : Byte) ∉ Ins.string w e) :
    Ins.listString w es = Ins.listString w fs ↔ es.map (Ins.string w) = fs.map (Ins.string w) := by
  constructor
  · intro e
    have ne : ∀ es : List Ins.Instruction, (∀ e ∈ es, e ≠ none) → Ins.listString w es = [] → es = [] := by
      intro es hz he
      cases es with
      | nil => rfl
      | cons a es =>
        cases a with
        | none => exact absurd rfl (hz none (by simp))
        | some b =>
          cases es with
          | nil => simp [Ins.listString, Str.join, Ins.string] at he
          | cons c es => simp [Ins.listString, Str.join] at he
    by_cases h1 : es = []
    · subst h1
      rw [ne fs (fun e he => hz e (by simp [he])) e.symm]
    · by_cases h2 : fs = []
      · subst h2
        rw [ne es (fun e he => hz e (by simp [he])) e]
      · have k1 := (C132_lines_partial w es h1 fun e he => h e (by simp [he])).1
        have k2 := (C132_lines_partial w fs h2 fun e he => h e (by simp [he])).2
        rw [e] at k1
        exact k2 _ k1
  · intro e
    rw [Ins.listString, e, Ins.listString]

example : (∀ e ∈ [Ins.labelled b!"x", Ins.labelled b!"y"], (10 : Byte) ∉ Ins.string backWorld e) ∧
    Ins.listString backWorld [Ins.labelled b!"x", Ins.labelled b!"y"] =
      b!"(version 3.0; acl \"x\"; )" ++ [10] ++ b!"(version 3.0; acl \"y\"; )" := by
  decide +kernel

theorem squeezed_no_lf {m s : Str} (h : Squeezed m s) : (10 : Byte) ∉ s := by
  induction h with
  | nil => simp
  | blanks w t s _ _ _ _ ih => simp [ih]
  | ascii c t s hb _ _ ih =>
    have : (10 : Byte) ≠ c := fun e => hb (by subst e; exact .inr (.inl rfl))
    simp [ih, this]
  | middle c t s h1 h2 _ ih =>
    have : (10 : Byte) ≠ c := fun e => by subst e; revert h1; decide
    simp [ih, this]
  | upper c t s h1 _ ih =>
    have : (10 : Byte) ≠ c - 0x40 := fun e => by
      have : c = 0x4A := by
        have := congrArg (· + 0x40) e
        simp only [UInt8.sub_add_cancel] at this
        exact this.symm
      subst this; revert h1; decide
    simp [ih, this]

theorem condensed_no_lf {v u : Str} (h : Condenses v u) : (10 : Byte) ∉ u := by
  obtain ⟨m, s, -, hs, ⟨⟨l, r, e, -⟩, -⟩⟩ := h
  intro hm
  exact squeezed_no_lf hs (by rw [e]; simp [hm])

/-- Two instructions say the same: label, target rules and permission bind rules. -/
def SameIns (w : World) (i j : Ins.Instruction) : Prop :=
  ∃ a b, i = some a ∧ j = some b ∧ a.acl = b.acl ∧ a.trs.map contentT = b.trs.map contentT ∧
    Along (SameP w.S) a.pbrs b.pbrs

/-- **C132**, reading back: if the instructions of a list are of the kind that is read from its text (C100), their
texts are condensed, and no two have one text in any case of letters, then pushing the lines of the text of the list,
as texts, makes a list with the same text, that says the same.  Missing: other instructions (C100), and lists that
hold two instructions with one text (C52). -/
theorem C132_back_partial (F : EqualFold) (d : Oid.DotReader) (w : World) (rd : Str → Option Store)
    (P : Printing) (many : Bool → List Str → Str) (hP : Proper w.env F) (hd : w.dot = d.read)
    (hN : P.names.Perm Sec.authNames) (hw : Prints w (BExpr.texts P) many) (is : List Ins.Body)
    (hi : ∀ i ∈ is, WholeI F d P w i)
    (hc : ∀ i ∈ is, Condenses (Ins.string w (some i)) (Ins.string w (some i)))
    (hu : is.Pairwise fun i j => w.env.eq (Ins.string w (some i)) (Ins.string w (some j)) = false)
    (parser : Str → Option Ins.Tokens)
    (hp : ∀ i ∈ is, ∃ t, parser (Ins.string w (some i)) = some t ∧ SplitsI P many (Ins.string w (some i)) t)
    (ls : List Str) (hl : is ≠ [] → Lines (Ins.listString w (is.map some)) ls) (hl' : is = [] → ls = []) :
    Ins.listString w (Ins.push w (Ins.readText w rd parser) [] (ls.map .str)) = Ins.listString w (is.map some) ∧
    Along (SameIns w) (Ins.push w (Ins.readText w rd parser) [] (ls.map .str)) (is.map some) := by
  have e : ls = (is.map some).map (Ins.string w) := by
    by_cases h0 : is = []
    · rw [hl' h0, h0]; rfl
    · refine (C132_lines_partial w (is.map some) (by simpa using h0) ?_).2 ls (hl h0)
      intro e he
      obtain ⟨i, hi, rfl⟩ := List.mem_map.1 he
      exact condensed_no_lf (hc i hi)
  subst e
  have key : ∀ (is : List Ins.Body) (es : List Ins.Instruction),
      (∀ i ∈ is, WholeI F d P w i) → (∀ i ∈ is, Condenses (Ins.string w (some i)) (Ins.string w (some i))) →
      (is.Pairwise fun i j => w.env.eq (Ins.string w (some i)) (Ins.string w (some j)) = false) →
      (∀ i ∈ is, ∃ t, parser (Ins.string w (some i)) = some t ∧ SplitsI P many (Ins.string w (some i)) t) →
      (∀ e ∈ es, ∀ i ∈ is, w.env.eq (Ins.string w e) (Ins.string w (some i)) = false) →
      ∃ fs, Ins.push w (Ins.readText w rd parser) es (((is.map some).map (Ins.string w)).map .str) = es ++ fs ∧
        fs.map (Ins.string w) = (is.map some).map (Ins.string w) ∧ Along (SameIns w) fs (is.map some) := by
    intro is
    induction is with
    | nil => exact fun es _ _ _ _ _ => ⟨[], by simp [Ins.push], rfl, .nil⟩
    | cons i is ih =>
      intro es h1 h2 h3 h4 h5
      obtain ⟨i', g1, g2, g3, g4, g5⟩ := C100_text_partial F d w rd P many hP hd hN hw i (h1 i (by simp)) (h2 i (by simp))
        parser (h4 i (by simp))
      obtain ⟨h3a, h3b⟩ := List.pairwise_cons.1 h3
      have hpush : Ins.push w (Ins.readText w rd parser) es [.str (Ins.string w (some i))] = es ++ [some i'] := by
        rw [(Ins.C52_each w _ es).2.2.2 _ _ g1]
        refine ((Ins.C52_push w _ es i' (Ins.string w (some i)) ?_).1 ?_).1
        · rw [g2]; exact h2 i (by simp)
        · exact fun e he => h5 e he i (by simp)
      obtain ⟨fs, k1, k2, k3⟩ := ih (es ++ [some i']) (fun j hj => h1 j (by simp [hj])) (fun j hj => h2 j (by simp [hj])) h3b
        (fun j hj => h4 j (by simp [hj])) (by
          intro e he j hj
          rcases List.mem_append.1 he with he | he
          · exact h5 e he j (by simp [hj])
          · rw [List.mem_singleton.1 he, g2]; exact h3a j hj)
      refine ⟨some i' :: fs, ?_, ?_, .cons ⟨i', i, rfl, rfl, g3, g4, g5⟩ k3⟩
      · have := (Ins.C52_each w (Ins.readText w rd parser) es).2.1 [.str (Ins.string w (some i))]
          (((is.map some).map (Ins.string w)).map .str)
        simp only [List.map_cons]
        rw [List.singleton_append] at this
        rw [this, hpush, k1, List.append_assoc]; rfl
      · simp only [List.map_cons, k2, g2]
  obtain ⟨fs, k1, k2, k3⟩ := key is [] hi hc hu hp (by simp)
  rw [List.nil_append] at k1
  rw [k1]
  refine ⟨?_, k3⟩
  rw [Ins.listString, k2, Ins.listString]

/-- The sample of C100 with another label. -/
def otherIns : Ins.Body := { sampleIns with acl := b!"other" }

/-- The sample and the other one meet the conditions on instructions. -/
example : (∀ i ∈ [sampleIns, otherIns], WholeI .ref Oid.plainReader plainPrinting backWorld i) ∧
    (∀ i ∈ [sampleIns, otherIns], Condenses (Ins.string backWorld (some i)) (Ins.string backWorld (some i))) ∧
    ([sampleIns, otherIns].Pairwise fun i j =>
      backWorld.env.eq (Ins.string backWorld (some i)) (Ins.string backWorld (some j)) = false) ∧
    ∃ parser : Str → Option Ins.Tokens, ∀ i ∈ [sampleIns, otherIns],
      ∃ t, parser (Ins.string backWorld (some i)) = some t ∧
        SplitsI plainPrinting (fun _ _ => []) (Ins.string backWorld (some i)) t := by
  have h1 : ∀ i ∈ [sampleIns, otherIns], WholeI .ref Oid.plainReader plainPrinting backWorld i := by
    intro i hi
    simp only [List.mem_cons, List.not_mem_nil, or_false] at hi
    rcases hi with rfl | rfl
    · exact sampleIns_whole
    · obtain ⟨-, h⟩ := sampleIns_whole
      exact ⟨by decide, h⟩
  refine ⟨h1, ?_, ?_, ?_⟩
  · intro i hi
    simp only [List.mem_cons, List.not_mem_nil, or_false] at hi
    rcases hi with rfl | rfl <;> exact (Verif.condenses_iff _ _).2 (by decide +kernel)
  · simp only [List.pairwise_cons, List.mem_singleton, List.not_mem_nil, forall_eq]
    exact ⟨by decide +kernel, by simp, .nil⟩
  · obtain ⟨t, ht⟩ := C100_split _ _ backWorld plainPrinting _ backWorld_prints sampleIns (h1 _ (by simp))
    obtain ⟨u, hu⟩ := C100_split _ _ backWorld plainPrinting _ backWorld_prints otherIns (h1 _ (by simp))
    refine ⟨fun s => if s = Ins.string backWorld (some sampleIns) then some t else some u, ?_⟩
    intro i hi
    simp only [List.mem_cons, List.not_mem_nil, or_false] at hi
    rcases hi with rfl | rfl
    · exact ⟨t, if_pos rfl, ht⟩
    · exact ⟨u, if_neg (by decide +kernel), hu⟩

/-! ## What fails -/

/-- **C132** fails: a label may hold a line feed, and even what stands between two instructions. -/
theorem C132_counterexample : ¬ LineByLine ∧ ¬ TextTells ∧
    Ins.listString backWorld [Ins.labelled (b!"x\"; )" ++ [10] ++ b!"(version 3.0; acl \"y")] =
      Ins.listString backWorld [Ins.labelled b!"x", Ins.labelled b!"y"] := by
  have e : Ins.listString backWorld [Ins.labelled (b!"x\"; )" ++ [10] ++ b!"(version 3.0; acl \"y")] =
      Ins.listString backWorld [Ins.labelled b!"x", Ins.labelled b!"y"] := by decide +kernel
  refine ⟨?_, ?_, e⟩
  · intro h
    have := lines_split (h backWorld [Ins.labelled [10]] (by simp) (by simp [Ins.labelled]))
    revert this; decide +kernel
  · intro h
    have := congrArg List.length (h backWorld _ _ (by simp [Ins.labelled]) e)
    simp at this

end Verif.ListText
