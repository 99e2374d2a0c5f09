import Verif.Props.Heap

/-!
# Lists of instructions in memory: C118
-/

namespace Verif.Heap
open Verif Verif.Bind Verif.Rules Verif.PB

/-- **C118**, the claim: no two instructions of a list have the same text, and none is there twice. -/
def InstructionsDiffer : Prop :=
  ∀ (o : Outside) (E : EqualFold), o.w.env.eq = E.eq → ∀ (p : List Stmt) (l : Nat) (es : List Nat),
    (Mem.empty.run o p).ilists[l]? = some es → ∀ (i j a b : Nat), i < j → es[i]? = some a → es[j]? = some b →
      a ≠ b ∧ E.eq ((Mem.empty.run o p).text o a) ((Mem.empty.run o p).text o b) = false

/-- A list of two instructions, the second of which gets the label of the first. -/
def alike : List Stmt := [.aci [.str b!"a"], .aci [], .ilist [some 0, some 1], .iset 1 [.str b!"a"]]

/-- An instruction with two spaces in its label is pushed twice. -/
def again : List Stmt := [.aci [.str b!"a  b"], .ilist [some 0, some 0]]

/-- **C118**: the claim fails in both parts: `Set` gives two instructions of a list the same text, and an
instruction with two spaces in its text is taken twice. -/
theorem C118_counterexample : ¬ InstructionsDiffer ∧
    (Mem.empty.run plainOutside alike).ilists[0]? = some [0, 1] ∧
    (Mem.empty.run plainOutside alike).text plainOutside 0 = (Mem.empty.run plainOutside alike).text plainOutside 1 ∧
    (Mem.empty.run plainOutside again).ilists[0]? = some [0, 0] := by
  have h0 : (Mem.empty.run plainOutside again).ilists[0]? = some [0, 0] := by decide +kernel
  refine ⟨fun h => ?_, by decide +kernel, by decide +kernel, h0⟩
  exact (h plainOutside .ref rfl again 0 [0, 0] h0 0 1 0 0 (by decide) rfl rfl).1 rfl

/-- **C118**: every entry of every list is an instruction that was made. -/
theorem C118_entries (o : Outside) (p : List Stmt) (l : Nat) (es : List Nat)
    (hl : (Mem.empty.run o p).ilists[l]? = some es) (i : Nat) (hi : i ∈ es) :
    i < (Mem.empty.run o p).inss.length ∧ ∃ b, (Mem.empty.run o p).seeI i = some b := by
  have h := (wf_run o p wf_empty).ilist es (List.mem_of_getElem? hl) i hi
  exact ⟨h, _, by simp only [Mem.seeI, List.getElem?_eq_getElem h, Option.map_some]; rfl⟩

/-- No entry has the condensed text of a later one. -/
def DifferI (o : Outside) (m : Mem) : Prop :=
  ∀ es ∈ m.ilists, es.Pairwise fun a b => Ins.sameCondensed o.w (m.seeI a) (m.seeI b) = false

theorem acceptI_new {o : Outside} {m : Mem} {es : List Nat} {x : Option Nat} {e : Nat}
    (h : m.acceptI o es x = some e) :
    x = some e ∧ ∀ a ∈ es, Ins.sameCondensed o.w (m.seeI a) (m.seeI e) = false := by
  cases x with
  | none => cases h
  | some i =>
    simp only [Mem.acceptI] at h
    split at h
    · next hs =>
      cases h
      obtain ⟨j, hj⟩ := Option.isSome_iff_exists.1 hs
      obtain ⟨h1, _, h3⟩ := Ins.accept_ins hj
      cases h1
      exact ⟨rfl, fun a ha => h3 _ (List.mem_map_of_mem ha)⟩
    · cases h

theorem differI_push {o : Outside} {m : Mem} {es : List Nat} {x : Option Nat} {e : Nat}
    (hp : es.Pairwise fun a b => Ins.sameCondensed o.w (m.seeI a) (m.seeI b) = false)
    (h : m.acceptI o es x = some e) :
    (es ++ [e]).Pairwise fun a b => Ins.sameCondensed o.w (m.seeI a) (m.seeI b) = false := by
  rw [List.pairwise_append]
  refine ⟨hp, List.pairwise_singleton _ _, ?_⟩
  intro a ha b hb
  simp only [List.mem_singleton] at hb
  subst hb
  exact (acceptI_new h).2 a ha

theorem differI_pushI (o : Outside) {m : Mem} (hm : DifferI o m) (l : Nat) (xs : List (Option Nat)) :
    DifferI o (m.pushI o l xs) := by
  intro es hes
  rcases mem_modify hes with h | ⟨es', h1, rfl⟩
  · exact hm es h
  · exact pushes_inv (P := fun es => es.Pairwise fun a b => Ins.sameCondensed o.w (m.seeI a) (m.seeI b) = false)
      (fun es x e hp hacc => differI_push hp hacc) xs (hm es' (List.mem_of_getElem? h1))

theorem ilists_setI (o : Outside) (i t p : Nat) (m : Mem) (xs : List ISet) :
    (m.setI o i t p xs).ilists = m.ilists := by
  have fold : ∀ {β : Type} (f : Mem → β → Mem) (_ : ∀ m b, (f m b).ilists = m.ilists) (xs : List β) (m : Mem),
      (xs.foldl f m).ilists = m.ilists := by
    intro β f h xs
    induction xs with
    | nil => exact fun m => rfl
    | cons x xs ih => exact fun m => (ih _).trans (h m x)
  refine fold _ ?_ xs m
  intro m x
  cases x with
  | str s => rfl
  | trs l =>
    cases l with
    | none => rfl
    | some l =>
      simp only [Mem.assert1]
      refine fold _ ?_ _ m
      intro m a
      by_cases hk : matchTKW (TargetKeyword.string (Held.at_ m.trules a).keyword) ≠ 0
      · rw [if_pos hk]; rfl
      · rw [if_neg hk]
  | tr a => rfl
  | pbr a => rfl
  | pbrs l =>
    cases l with
    | none => rfl
    | some l =>
      simp only [Mem.assert1]
      exact fold (fun m a => m.pushP o p [some a]) (fun m a => rfl) _ m
  | other => rfl

theorem differI_same {o : Outside} {m m' : Mem} (hd : DifferI o m) (hl : m'.ilists = m.ilists)
    (h : ∀ es ∈ m.ilists, ∀ a ∈ es, m'.seeI a = m.seeI a) : DifferI o m' := by
  intro es hes
  rw [hl] at hes
  refine List.Pairwise.imp_of_mem ?_ (hd es hes)
  intro a b ha hb hab
  rw [h es hes a ha, h es hes b hb]; exact hab

theorem differI_exec (o : Outside) {m : Mem} (hm : Wf m) (hd : DifferI o m) (s : Stmt) (hs : QuietI m s) :
    DifferI o (m.exec o s) := by
  have hsee : ∀ es ∈ m.ilists, ∀ a ∈ es, (m.exec o s).seeI a = m.seeI a := fun es hes a ha =>
    text_kept o hm s a (hm.ilist es hes a ha) (hs es hes a ha)
  cases s with
  | ilist xs =>
    refine differI_pushI o ?_ _ xs
    intro es hes
    rcases List.mem_append.1 hes with hes | hes
    · exact hd es hes
    · simp only [List.mem_singleton] at hes; subst hes; exact List.Pairwise.nil
  | ipush l xs => exact differI_pushI o hd l xs
  | ipop l =>
    intro es hes
    rcases mem_modify hes with h | ⟨es', h1, rfl⟩
    · exact hd es h
    · exact (hd es' (List.mem_of_getElem? h1)).sublist (List.dropLast_sublist _)
  | aci xs => exact differI_same hd (ilists_setI o _ _ _ _ xs) hsee
  | iset i xs =>
    refine differI_same hd ?_ hsee
    simp only [Mem.exec]
    split
    · exact ilists_setI o _ _ _ _ xs
    · rfl
  | pbr p b =>
    refine differI_same hd ?_ hsee
    simp only [Mem.exec]; split <;> rfl
  | pbrSet a xs =>
    refine differI_same hd ?_ hsee
    simp only [Mem.exec]; split <;> rfl
  | _ => exact differI_same hd rfl hsee

theorem differI_run (o : Outside) (p : List Stmt) {m : Mem} (hm : Wf m) (hd : DifferI o m) (hp : QuietIRun o m p) :
    DifferI o (m.run o p) := by
  induction p generalizing m with
  | nil => exact hd
  | cons s p ih => exact ih (wf_exec o hm s) (differI_exec o hm hd s hp.1) hp.2

/-- **C118** for programs that change nothing an instruction in a list is made of, and instructions whose text is
condensed (one space at a time, none at the ends, ASCII).  Missing: other programs and other texts. -/
theorem C118_partial (o : Outside) (E : EqualFold) (hE : o.w.env.eq = E.eq) (p : List Stmt)
    (hp : QuietIRun o Mem.empty p) (l : Nat) (es : List Nat) (hl : (Mem.empty.run o p).ilists[l]? = some es)
    (i j a b : Nat) (hij : i < j) (ha : es[i]? = some a) (hb : es[j]? = some b)
    (hc : Spec.Condenses ((Mem.empty.run o p).text o b) ((Mem.empty.run o p).text o b)) :
    a ≠ b ∧ E.eq ((Mem.empty.run o p).text o a) ((Mem.empty.run o p).text o b) = false := by
  have hd : DifferI o (Mem.empty.run o p) := differI_run o p wf_empty (by intro es h; cases h) hp
  have h := List.pairwise_iff_getElem.1 (hd es (List.mem_of_getElem? hl))
  obtain ⟨hi, rfl⟩ := List.getElem?_eq_some_iff.1 ha
  obtain ⟨hj, rfl⟩ := List.getElem?_eq_some_iff.1 hb
  have h := h i j hi hj hij
  rw [Mem.text, condenses_iff] at hc
  rw [Ins.sameCondensed, hc, hE] at h
  refine ⟨fun e => ?_, h⟩
  rw [e, E.refl] at h
  cases h

/-- A list of two instructions. -/
def listed : List Stmt := [.aci [.str b!"a"], .aci [.str b!"b"], .ilist [some 0], .ipush 0 [some 1, some 0]]

theorem reads_ilist {m : Mem} {i l : Nat} : ¬ Reads m i (.ilist l) := fun h => by cases h

example : QuietIRun plainOutside Mem.empty listed ∧ (Mem.empty.run plainOutside listed).ilists[0]? = some [0, 1] ∧
    Spec.Condenses ((Mem.empty.run plainOutside listed).text plainOutside 1)
      ((Mem.empty.run plainOutside listed).text plainOutside 1) := by
  refine ⟨⟨?_, ?_, ?_, ?_, trivial⟩, by decide +kernel, (condenses_iff _ _).2 (by decide +kernel)⟩
  · rintro es hes i hi c hw; exact hw.elim
  · rintro es hes i hi c hw; exact hw.elim
  · rintro es hes i hi c hw; exact hw.elim
  · rintro es hes i hi c rfl; exact reads_ilist

/-- **C118**: `Push` takes an instruction if and only if it was made and no entry of the list has its condensed text,
as the instructions are at the time of the call. -/
theorem C118_push (o : Outside) (p : List Stmt) (l : Nat) (es : List Nat) (i : Nat) (t : Str)
    (hl : (Mem.empty.run o p).ilists[l]? = some es) (ht : Spec.Condenses ((Mem.empty.run o p).text o i) t) :
    (i < (Mem.empty.run o p).inss.length → (∀ e ∈ es, o.w.env.eq ((Mem.empty.run o p).text o e) t = false) →
      ((Mem.empty.run o p).exec o (.ipush l [some i])).ilists[l]? = some (es ++ [i])) ∧
    (¬ (i < (Mem.empty.run o p).inss.length ∧ ∀ e ∈ es, o.w.env.eq ((Mem.empty.run o p).text o e) t = false) →
      ((Mem.empty.run o p).exec o (.ipush l [some i])).ilists[l]? = some es) := by
  generalize Mem.empty.run o p = m at hl ht ⊢
  rw [condenses_iff] at ht
  subst ht
  simp only [Mem.exec, Mem.pushI]
  rw [get_modify_eq _ hl]
  simp only [List.foldl_cons, List.foldl_nil, stackPush]
  constructor
  · intro hi h
    have : m.acceptI o es (some i) = some i := by
      have hv : Ins.valid (m.seeI i) = true := by
        simp only [Mem.seeI, List.getElem?_eq_getElem hi, Option.map_some, Ins.valid, Option.isSome_some]
      have hc : Ins.contains o.w (es.map m.seeI) (.ins (m.seeI i)) = false := by
        simp only [Ins.contains, Ins.candidate, List.any_map, List.any_eq_false, Function.comp, Bool.not_eq_true]
        exact h
      simp only [Mem.acceptI, Ins.accept, hc, Ins.acceptType, hv, Bool.false_eq_true, if_false, if_true,
        Option.isSome_some]
    rw [this]
  · intro h
    cases ha : m.acceptI o es (some i) with
    | none => simp
    | some e =>
      obtain ⟨h1, h2⟩ := acceptI_new ha
      cases h1
      exact absurd ⟨(acceptI_there ha).2, h2⟩ h

example : (Mem.empty.run plainOutside listed).ilists[0]? = some [0, 1] ∧ Spec.Condenses
    ((Mem.empty.run plainOutside listed).text plainOutside 1) ((Mem.empty.run plainOutside listed).text plainOutside 1) :=
  ⟨by decide +kernel, (condenses_iff _ _).2 (by decide +kernel)⟩

/-- **C118**, the frame: a statement that is no push or pop of the list and changes nothing its instructions are
made of leaves the text of the list as it is. -/
theorem C118_frame (o : Outside) (p : List Stmt) (s : Stmt) (l : Nat) (es : List Nat)
    (hl : (Mem.empty.run o p).ilists[l]? = some es) (h0 : ¬ Writes (Mem.empty.run o p) s (.ilist l))
    (h : ∀ i ∈ es, ∀ c, Writes (Mem.empty.run o p) s c → ¬ Reads (Mem.empty.run o p) i c) :
    ((Mem.empty.run o p).exec o s).listText o l = (Mem.empty.run o p).listText o l := by
  have hm := wf_run o p wf_empty
  generalize Mem.empty.run o p = m at hm hl h0 h ⊢
  have hsame : (m.exec o s).ilists[l]? = m.ilists[l]? :=
    same_exec o m s (.ilist l) (List.getElem?_eq_some_iff.1 hl).1 h0
  simp only [Mem.listText, hsame, hl, Option.getD_some]
  congr 1
  exact List.map_congr_left fun i hi => text_kept o hm s i (hm.ilist es (List.mem_of_getElem? hl) i hi) (h i hi)

example : (Mem.empty.run plainOutside listed).ilists[0]? = some [0, 1] ∧
    ¬ Writes (Mem.empty.run plainOutside listed) (.tlist []) (.ilist 0) ∧
    ∀ i ∈ [0, 1], ∀ c, Writes (Mem.empty.run plainOutside listed) (.tlist []) c →
      ¬ Reads (Mem.empty.run plainOutside listed) i c :=
  ⟨by decide +kernel, id, fun _ _ _ h => h.elim⟩

end Verif.Heap
