import Verif.Props.InForce
import Verif.Props.OneWay

/-!
# Whether instructions that are pushed are in force (C145)

A list of instructions takes an instruction for one that it holds if their texts are the same up to case
and white space (C52).  What the list allows and denies is what one of its instructions allows and denies,
where that instruction applies.
-/

namespace Verif.InsForce
open Verif Verif.Spec Verif.Bind Verif.PB Verif.Decide Verif.Whole Verif.OneWay Verif.Applies Verif.Given

/-- What is asked of a target rule: keyword, operator and values. -/
def aboutT (r : Rules.TRule) := (r.core.kw, r.core.op, quoted r)

/-- **C145**, the full claim: a list of instructions allows and denies exactly what the instructions pushed onto it
do.  What holds of a rule may depend on its keyword, its operator and the texts of its values. -/
def InstructionsInForce : Prop :=
  ∀ (w : World) (E : EqualFold) (val : BExpr → List Str) (many : Bool → List Str → Str), w.env.eq = E.eq →
    Prints w val many → ∀ (rd : Str → Option Ins.Instruction) (l : List Ins.Body) neg (v : Str × Cop × List Str → Bool)
      (u : _ → Prop) allow q,
      AnyGives neg (fun r => v (r.asks val)) (fun r => u (aboutT r)) allow q (Ins.push w rd [] (l.map fun i => .ins (some i))) ↔
        AnyGives neg (fun r => v (r.asks val)) (fun r => u (aboutT r)) allow q (l.map some)

/-- **C145**, the part that matters most: the list permits nothing that the instructions do not. -/
def ListPermitsNoMore : Prop :=
  ∀ (w : World) (E : EqualFold) (val : BExpr → List Str) (many : Bool → List Str → Str), w.env.eq = E.eq →
    Prints w val many → ∀ (rd : Str → Option Ins.Instruction) (l : List Ins.Body) neg (v : Str × Cop × List Str → Bool)
      (u : _ → Prop) q,
      AllPermit neg (fun r => v (r.asks val)) (fun r => u (aboutT r)) q (Ins.push w rd [] (l.map fun i => .ins (some i))) →
        AllPermit neg (fun r => v (r.asks val)) (fun r => u (aboutT r)) q (l.map some)

/-! ## What holds -/

/-- An argument offers an instruction: itself, or the one read from it. -/
def Offers (rd : Str → Option Ins.Instruction) (x : Ins.IArg) (i : Ins.Body) : Prop :=
  x = .ins (some i) ∨ ∃ s, x = .str s ∧ rd s = some (some i)

/-- What is offered is in the list afterwards, or an instruction with the same text up to case and white space. -/
theorem held (w : World) (rd : Str → Option Ins.Instruction) (xs : List Ins.IArg) :
    ∀ (es : List Ins.Instruction), ∀ x ∈ xs, ∀ j, Offers rd x j →
      ∃ i ∈ Ins.push w rd es xs, i = some j ∨
        w.env.eq (Ins.string w i) (Misc.condenseWHSP (Ins.string w (some j))) = true := by
  have one : ∀ (es : List Ins.Instruction) (j : Ins.Body), ∃ i ∈ Ins.push1 w es (.ins (some j)), i = some j ∨
      w.env.eq (Ins.string w i) (Misc.condenseWHSP (Ins.string w (some j))) = true := by
    intro es j
    cases hc : Ins.contains w es (.ins (some j)) with
    | true =>
      obtain ⟨i, hi, he⟩ := List.any_eq_true.1 hc
      refine ⟨i, (stackPush_prefix _ _).subset hi, .inr he⟩
    | false =>
      refine ⟨some j, ?_, .inl rfl⟩
      simp [Ins.push1, stackPush, Ins.accept, hc, Ins.acceptType, Ins.valid]
  intro es x hx j hj
  induction xs generalizing es with
  | nil => cases hx
  | cons y xs ih =>
    rcases List.mem_cons.1 hx with rfl | hx
    · have : ∃ i ∈ Ins.pushOne w rd es x, i = some j ∨
          w.env.eq (Ins.string w i) (Misc.condenseWHSP (Ins.string w (some j))) = true := by
        rcases hj with rfl | ⟨s, rfl, hs⟩
        · exact one es j
        · simp only [Ins.pushOne, hs]; exact one es j
      obtain ⟨i, hi, he⟩ := this
      exact ⟨i, (ins_push w rd xs _).1.subset hi, he⟩
    · exact ih _ hx

/-- **C145**, what holds of all instructions: the list allows and denies nothing that it did not and that no
instruction offered does.  Missing: that it allows and denies all of it. -/
theorem C145_no_more_partial (w : World) (rd : Str → Option Ins.Instruction) (es : List Ins.Instruction)
    (xs : List Ins.IArg) (neg : List Bool → Bool) (τ : BRule → Bool) (ρ : Rules.TRule → Prop) (allow : Bool) (q : Priv)
    (h : AnyGives neg τ ρ allow q (Ins.push w rd es xs)) :
    AnyGives neg τ ρ allow q es ∨ ∃ x ∈ xs, ∃ i, Offers rd x i ∧ AnyGives neg τ ρ allow q [some i] := by
  obtain ⟨i, hi, h1, h2⟩ := h
  rcases (ins_push w rd xs es).2 i hi with h | ⟨x, hx, h⟩
  · exact .inl ⟨i, h, h1, h2⟩
  · cases i with
    | none => obtain ⟨c, b, hm, -⟩ := h2; cases hm
    | some i =>
      refine .inr ⟨x, hx, i, ?_, some i, List.mem_singleton.2 rfl, h1, h2⟩
      rcases h with h | ⟨s, h, e⟩
      · exact .inl h
      · exact .inr ⟨s, h, e⟩

theorem along_right {α : Type} {R : α → α → Prop} {l m : List α} (h : Along R l m) :
    ∀ b ∈ m, ∃ a ∈ l, R a b := by
  induction h with
  | nil => intro b hb; cases hb
  | cons h _ ih =>
    intro b hb
    rcases List.mem_cons.1 hb with rfl | hb
    · exact ⟨_, List.mem_cons_self, h⟩
    · obtain ⟨a, ha, hr⟩ := ih b hb
      exact ⟨a, List.mem_cons_of_mem _ ha, hr⟩

theorem along_left {α : Type} {R : α → α → Prop} {l m : List α} (h : Along R l m) :
    ∀ a ∈ l, ∃ b ∈ m, R a b := by
  induction h with
  | nil => intro b hb; cases hb
  | cons h _ ih =>
    intro b hb
    rcases List.mem_cons.1 hb with rfl | hb
    · exact ⟨_, List.mem_cons_self, h⟩
    · obtain ⟨a, ha, hr⟩ := ih b hb
      exact ⟨a, List.mem_cons_of_mem _ ha, hr⟩

/-- An instruction with the same text gives the same. -/
theorem gives_alike {w : World} {val : BExpr → List Str} {many : Bool → List Str → Str} (hw : Prints w val many)
    {a b : Ins.Body} (ha : Clean val a) (hb : Clean val b) (h : Ins.string w (some a) = Ins.string w (some b))
    {neg : List Bool → Bool} {v : Str × Cop × List Str → Bool} {u : _ → Prop} {allow : Bool} {q : Priv}
    (hg : Apply (fun r => u (aboutT r)) b.trs ∧ Gives neg (fun r => v (r.asks val)) allow q b.pbrs) :
    Apply (fun r => u (aboutT r)) a.trs ∧ Gives neg (fun r => v (r.asks val)) allow q a.pbrs := by
  obtain ⟨-, ht, hr⟩ := C88_text_shows_all_partial w val many hw a b ha hb h
  refine ⟨fun r hm => ?_, ?_⟩
  · obtain ⟨r', hm', e1, e2, e3⟩ := along_left ht r hm
    have := hg.1 r' hm'
    simp only [aboutT] at this ⊢
    rw [e1, e2, e3]; exact this
  · obtain ⟨c, x, hm, h1⟩ := hg.2
    obtain ⟨r, hm', hs⟩ := along_right hr _ hm
    obtain ⟨c', x', hm'', h2⟩ := InForce.gives_same hs neg v allow q ⟨c, x, List.mem_singleton.2 rfl, h1⟩
    exact ⟨c', x', (List.mem_singleton.1 hm'') ▸ hm', h2⟩

/-- No unset instruction gets into the list. -/
theorem set_only (w : World) (rd : Str → Option Ins.Instruction) (xs : List Ins.IArg) :
    ∀ es : List Ins.Instruction, none ∉ es → none ∉ Ins.push w rd es xs := by
  have one : ∀ (es : List Ins.Instruction) (x : Ins.IArg), none ∉ es → none ∉ Ins.push1 w es x := by
    intro es x h
    simp only [Ins.push1, stackPush]
    cases ha : Ins.accept w es x with
    | none => exact h
    | some e =>
      simp only [List.mem_append, List.mem_singleton, not_or]
      refine ⟨h, ?_⟩
      rintro rfl
      simp only [Ins.accept] at ha
      split at ha
      · cases ha
      · cases x with
        | ins i => cases i <;> simp [Ins.acceptType, Ins.valid] at ha
        | str s => cases ha
        | other => cases ha
  induction xs with
  | nil => intro es h; exact h
  | cons x xs ih =>
    intro es h
    refine ih _ ?_
    cases x with
    | str s =>
      simp only [Ins.pushOne]
      split
      · exact h
      · exact one _ _ h
    | ins i => exact one _ _ h
    | other => exact one _ _ h

/-- **C145** for instructions whose text shows what they mean (C88), no two of which have texts that differ in case
or white space alone: the list allows, denies and permits exactly what it did and what the instructions offered do.
Missing: instructions whose text does not show what they mean, and texts that differ in case or white space. -/
theorem C145_clean_partial (w : World) (val : BExpr → List Str) (many : Bool → List Str → Str) (hw : Prints w val many)
    (rd : Str → Option Ins.Instruction) (es : List Ins.Instruction) (xs : List Ins.IArg)
    (hs : ∀ i, some i ∈ es ∨ (∃ x ∈ xs, Offers rd x i) → Clean val i)
    (hc : ∀ i j, some i ∈ es ∨ (∃ x ∈ xs, Offers rd x i) → (∃ x ∈ xs, Offers rd x j) →
      w.env.eq (Ins.string w (some i)) (Misc.condenseWHSP (Ins.string w (some j))) = true →
      Ins.string w (some i) = Ins.string w (some j))
    (hn : none ∉ es) (neg : List Bool → Bool) (v : Str × Cop × List Str → Bool) (u : _ → Prop) (allow : Bool) (q : Priv) :
    AnyGives neg (fun r => v (r.asks val)) (fun r => u (aboutT r)) allow q (Ins.push w rd es xs) ↔
      AnyGives neg (fun r => v (r.asks val)) (fun r => u (aboutT r)) allow q es ∨
      ∃ x ∈ xs, ∃ i, Offers rd x i ∧ AnyGives neg (fun r => v (r.asks val)) (fun r => u (aboutT r)) allow q [some i] := by
  refine ⟨C145_no_more_partial w rd es xs _ _ _ _ _, ?_⟩
  rintro (⟨i, hi, h⟩ | ⟨x, hx, j, ho, k, hk, h⟩)
  · exact ⟨i, (ins_push w rd xs es).1.subset hi, h⟩
  · rw [List.mem_singleton.1 hk] at h
    obtain ⟨i, hi, he⟩ := held w rd xs es x hx j ho
    rcases he with rfl | he
    · exact ⟨some j, hi, h⟩
    · have from' : i ∈ es ∨ ∃ x ∈ xs, x = .ins i ∨ ∃ s, x = .str s ∧ rd s = some i := (ins_push w rd xs es).2 i hi
      cases i with
      | none => exact absurd hi (set_only w rd xs es hn)
      | some i =>
        have hi' : some i ∈ es ∨ ∃ x ∈ xs, Offers rd x i := by
          rcases from' with h | ⟨y, hy, h⟩
          · exact .inl h
          · exact .inr ⟨y, hy, h⟩
        exact ⟨some i, hi, gives_alike hw (hs i hi') (hs j (.inr ⟨x, hx, ho⟩)) (hc i j hi' ⟨x, hx, ho⟩ he) h⟩

/-- **C145** for a new list of such instructions: it permits exactly what they do.  Missing: as before. -/
theorem C145_permits_partial (w : World) (val : BExpr → List Str) (many : Bool → List Str → Str) (hw : Prints w val many)
    (rd : Str → Option Ins.Instruction) (l : List Ins.Body) (hs : ∀ i ∈ l, Clean val i)
    (hc : ∀ i ∈ l, ∀ j ∈ l, w.env.eq (Ins.string w (some i)) (Misc.condenseWHSP (Ins.string w (some j))) = true →
      Ins.string w (some i) = Ins.string w (some j))
    (neg : List Bool → Bool) (v : Str × Cop × List Str → Bool) (u : _ → Prop) (q : Priv) :
    AllPermit neg (fun r => v (r.asks val)) (fun r => u (aboutT r)) q (Ins.push w rd [] (l.map fun i => .ins (some i))) ↔
      AllPermit neg (fun r => v (r.asks val)) (fun r => u (aboutT r)) q (l.map some) := by
  have off : ∀ i, (some i ∈ ([] : List Ins.Instruction) ∨ ∃ x ∈ l.map fun i => Ins.IArg.ins (some i), Offers rd x i) → i ∈ l := by
    rintro i (h | ⟨x, hx, h⟩)
    · cases h
    · obtain ⟨k, hk, rfl⟩ := List.mem_map.1 hx
      rcases h with h | ⟨s, h, -⟩
      · cases h; exact hk
      · cases h
  have key : ∀ allow, AnyGives neg (fun r => v (r.asks val)) (fun r => u (aboutT r)) allow q
      (Ins.push w rd [] (l.map fun i => .ins (some i))) ↔
      AnyGives neg (fun r => v (r.asks val)) (fun r => u (aboutT r)) allow q (l.map some) := by
    intro allow
    rw [C145_clean_partial w val many hw rd [] _ (fun i h => hs i (off i h)) (fun i j h h' => hc i (off i h) j (off j (.inr h')))
      (by simp) neg v u allow q]
    constructor
    · rintro (⟨i, hi, -⟩ | ⟨x, hx, i, ho, k, hk, h⟩)
      · cases hi
      · rw [List.mem_singleton.1 hk] at h
        exact ⟨some i, List.mem_map.2 ⟨i, off i (.inr ⟨x, hx, ho⟩), rfl⟩, h⟩
    · rintro ⟨k, hk, h⟩
      obtain ⟨i, hi, rfl⟩ := List.mem_map.1 hk
      exact .inr ⟨_, List.mem_map.2 ⟨i, hi, rfl⟩, i, .inl rfl, some i, List.mem_singleton.2 rfl, h⟩
  simp only [AllPermit, key]

/-- Two instructions whose texts differ in more than case, one of them twice. -/
def clear : List Ins.Body := [⟨b!"x", [], [readRule]⟩, ⟨b!"y", [], [writeRule]⟩, ⟨b!"x", [], [readRule]⟩]

example : (∀ i ∈ clear, Clean textVal i) ∧
    (∀ i ∈ clear, ∀ j ∈ clear, textWorld.env.eq (Ins.string textWorld (some i)) (Misc.condenseWHSP (Ins.string textWorld (some j))) = true →
      Ins.string textWorld (some i) = Ins.string textWorld (some j)) ∧
    Ins.push textWorld (fun _ => none) [] (clear.map fun i => .ins (some i)) =
      [some ⟨b!"x", [], [readRule]⟩, some ⟨b!"y", [], [writeRule]⟩] := by
  have hr : ∀ n : BitVec 16, Rights.valid (some ⟨true, n⟩) = true ∧ Rights.WithinTen (some ⟨true, n⟩) →
      RuleShown textVal (some ⟨true, n⟩) (.rule (textRule BindSSF b!"1")) := by
    intro n hn
    refine ⟨hn, textRule_valid.1, by simp [BCtx.Clear], ?_⟩
    intro r hr
    simp only [BCtx.leaves, List.mem_singleton] at hr
    subst hr
    exact textRule_shown .ssf b!"1" (by decide)
  have h1 : ∀ r ∈ [readRule], ∃ p b, r = some ⟨p, some b⟩ ∧ RuleShown textVal p b := fun r h =>
    ⟨_, _, List.mem_singleton.1 h, hr 1#16 ⟨by decide +kernel, by simp [Rights.WithinTen]⟩⟩
  have h2 : ∀ r ∈ [writeRule], ∃ p b, r = some ⟨p, some b⟩ ∧ RuleShown textVal p b := fun r h =>
    ⟨_, _, List.mem_singleton.1 h, hr 2#16 ⟨by decide +kernel, by simp [Rights.WithinTen]⟩⟩
  refine ⟨?_, by decide +kernel, rfl⟩
  intro i hi
  simp only [clear, List.mem_cons, List.not_mem_nil, or_false] at hi
  rcases hi with rfl | rfl | rfl
  · exact ⟨by decide, fun r hr => absurd hr (by simp), h1⟩
  · exact ⟨by decide, fun r hr => absurd hr (by simp), h2⟩
  · exact ⟨by decide, fun r hr => absurd hr (by simp), h1⟩

/-! ## What fails -/

/-- Three instructions under one label. -/
def three : List Ins.Body :=
  [⟨b!"x", [], [InForce.allowThird]⟩, ⟨b!"x", [], [InForce.denyFirst]⟩, ⟨b!"x", [], [InForce.denySecond]⟩]

/-- **C145** fails: after an instruction that denies with `And(a, Or(b, c))` the one that denies with `Or(And(a, b), c)` is
taken for the same and is not pushed; where `c` holds alone, the list permits what the second forbids. -/
theorem C145_counterexample : ¬ InstructionsInForce ∧ ¬ ListPermitsNoMore := by
  have hl : Ins.push textWorld (fun _ => none) [] (three.map fun i => .ins (some i)) =
      [some ⟨b!"x", [], [InForce.allowThird]⟩, some ⟨b!"x", [], [InForce.denyFirst]⟩] := by
    rfl
  have hlost : AnyGives (fun _ => false) (fun r => InForce.onlyDNS (r.asks textVal)) (fun _ => True) false .read (three.map some) :=
    ⟨_, List.mem_cons_of_mem _ (List.mem_cons_of_mem _ List.mem_cons_self), fun _ _ => trivial,
      _, _, List.mem_singleton.2 rfl, rfl, by decide +kernel, by decide +kernel⟩
  have hnot : ¬ AnyGives (fun _ => false) (fun r => InForce.onlyDNS (r.asks textVal)) (fun _ => True) false .read
      [some ⟨b!"x", [], [InForce.allowThird]⟩, some ⟨b!"x", [], [InForce.denyFirst]⟩] := by
    rintro ⟨i, hi, -, c, b, hm, hd, -, he⟩
    simp only [List.mem_cons, List.not_mem_nil, or_false] at hi
    rcases hi with rfl | rfl
    · simp only [Ins.pbrs, List.mem_singleton, InForce.allowThird, Option.some.injEq, Store.mk.injEq] at hm
      obtain ⟨rfl, rfl⟩ := hm
      cases hd
    · simp only [Ins.pbrs, List.mem_singleton, InForce.denyFirst, Option.some.injEq, Store.mk.injEq] at hm
      obtain ⟨rfl, rfl⟩ := hm
      revert he; decide +kernel
  have hyes : AnyGives (fun _ => false) (fun r => InForce.onlyDNS (r.asks textVal)) (fun _ => True) true .read
      [some ⟨b!"x", [], [InForce.allowThird]⟩, some ⟨b!"x", [], [InForce.denyFirst]⟩] :=
    ⟨_, List.mem_cons_self, (fun r hr => absurd hr (by simp [Ins.trs])), _, _, List.mem_singleton.2 rfl, rfl, by decide +kernel, by decide +kernel⟩
  constructor
  · intro h
    have := h textWorld .ref textVal _ rfl textWorld_prints (fun _ => none) three (fun _ => false) InForce.onlyDNS (fun _ => True) false .read
    rw [hl] at this
    exact hnot (this.2 hlost)
  · intro h
    have := h textWorld .ref textVal _ rfl textWorld_prints (fun _ => none) three (fun _ => false) InForce.onlyDNS (fun _ => True) .read
    rw [hl] at this
    exact (this ⟨hyes, hnot⟩).2 hlost

end Verif.InsForce
