import Verif.Model.Edit

/-!
# C108: an edited stack holds bind contexts, each in its place
-/

namespace Verif.Edit
open Verif Verif.Bind Verif.Rules

/-- What may stand in a stack of bind rules: an initialized stack, or a rule with a known keyword. -/
def Fit : BCtx → Prop
  | .rule r => ∃ k, k ≠ 0 ∧ matchBKW (BindKeyword.string r.keyword) = k
  | .zero => False
  | .rules _ _ _ => True

/-- Numbers outside of a stack put nothing new into it. -/
def Mild (far : Far) : Prop :=
  (∀ es i, ∀ e ∈ (far.remove es i).1, e ∈ es) ∧ (∀ es x i, ∀ e ∈ (far.insert es x i).1, e = x ∨ e ∈ es) ∧
  (∀ es x i, ∀ e ∈ far.replace es x i, e = x ∨ e ∈ es)

/-- Each number below the length shows a fit context. -/
def Shows (far : Far) (s : Stack) : Prop :=
  ∀ i : Nat, i < s.es.length → ∃ c, s.index far i = some c ∧ Fit c

/-- The claim: whatever is done to an empty stack, it shows fit contexts only. -/
def AlwaysShows : Prop :=
  ∀ (far : Far), Mild far → ∀ (ops : List Op), Shows far (ops.foldl (Op.run far) ⟨false, []⟩)

/-- Outside of the stack nothing happens. -/
def calm : Far := ⟨fun _ _ => none, fun es _ => (es, false), fun es _ _ => (es, false), fun es _ _ => es⟩

theorem calm_mild : Mild calm := ⟨fun _ _ _ h => h, fun _ _ _ _ h => .inr h, fun _ _ _ _ h => .inr h⟩

/-- **C108** fails: `Replace` puts anything in the place of an entry. -/
theorem C108_counterexample : ¬ AlwaysShows := by
  intro h
  obtain ⟨c, hc, -⟩ := h calm calm_mild [.push true [some (.rules .and false [])], .replace none 0] 0 (by decide)
  exact absurd hc (by simp [Op.run, Stack.push, Stack.replace, stackPush, acceptItem, acceptB, Stack.index, Find.stackIndex])

/-- **C108** fails for `insert` as well: an uninitialized stack is put into the stack, which
`Push` refuses. -/
theorem C108_insert_counterexample :
    ∃ (s : Stack) (c : BCtx), ¬ Fit c ∧ (s.push true [some c]).es = s.es ∧
      (s.insert calm (some c) 0).1.index calm 0 = some c := by
  refine ⟨⟨false, []⟩, .zero, fun h => h, rfl, rfl⟩

/-- The calls that hand over fit contexts only, as far as no policy is asked. -/
def Op.Clean : Op → Prop
  | .insert x _ => ∀ c, x = some c → Fit c
  | .replace x _ => ∃ c, x = some c ∧ Fit c
  | _ => True

theorem accept_fit {x e : Item} (h : acceptItem x = some e) : ∃ c, e = some c ∧ x = some c ∧ Fit c := by
  cases x with
  | none => simp [acceptItem] at h
  | some c =>
    cases c with
    | rule r =>
      simp only [acceptItem, acceptB] at h
      split at h
      · rename_i hk
        simp at h
        exact ⟨_, h.symm, rfl, _, hk, rfl⟩
      · simp at h
    | zero => simp [acceptItem, acceptB] at h
    | rules w p es =>
      simp [acceptItem, acceptB] at h
      exact ⟨_, h.symm, rfl, trivial⟩

theorem push_fit {stop : Bool} {es : List Item} (xs : List Item) (h : ∀ e ∈ es, ∃ c, e = some c ∧ Fit c) :
    ∀ e ∈ stackPush stop (fun _ => acceptItem) es xs, ∃ c, e = some c ∧ Fit c := by
  induction xs generalizing es with
  | nil => exact h
  | cons x xs ih =>
    simp only [stackPush]
    split
    · rename_i e he
      refine ih fun y hy => ?_
      rcases List.mem_append.1 hy with hy | hy
      · exact h y hy
      · rw [List.mem_singleton.1 hy]
        obtain ⟨c, h1, -, h2⟩ := accept_fit he
        exact ⟨c, h1, h2⟩
    · split
      · exact h
      · exact ih h

theorem run_fit {far : Far} (hf : Mild far) {s : Stack} (h : ∀ e ∈ s.es, ∃ c, e = some c ∧ Fit c) (o : Op)
    (ho : o.Clean) : ∀ e ∈ (o.run far s).es, ∃ c, e = some c ∧ Fit c := by
  obtain ⟨f1, f2, f3⟩ := hf
  cases o with
  | push stop xs =>
    simp only [Op.run, Stack.push]
    split
    · exact h
    · exact push_fit xs h
  | pop still =>
    simp only [Op.run, Stack.pop]
    split
    · exact h
    · exact fun e he => h e (List.dropLast_subset _ he)
  | remove i =>
    simp only [Op.run, Stack.remove]
    split
    · exact h
    split
    · exact fun e he => h e (List.mem_of_mem_eraseIdx he)
    · exact fun e he => h e (f1 _ _ e he)
  | insert x i =>
    simp only [Op.run, Stack.insert]
    split
    · exact h
    · rename_i c
      have hc : Fit c := ho c rfl
      split
      · exact h
      split
      · rename_i hi
        intro e he
        rcases (List.mem_insertIdx (by omega)).1 he with rfl | he
        · exact ⟨c, rfl, hc⟩
        · exact h e he
      · intro e he
        rcases f2 _ _ _ e he with rfl | he
        · exact ⟨c, rfl, hc⟩
        · exact h e he
  | replace x i =>
    obtain ⟨c, rfl, hc⟩ := ho
    simp only [Op.run, Stack.replace]
    split
    · exact h
    split
    · intro e he
      rcases List.mem_or_eq_of_mem_set he with he | rfl
      · exact h e he
      · exact ⟨c, rfl, hc⟩
    · intro e he
      rcases f3 _ _ _ e he with rfl | he
      · exact ⟨c, rfl, hc⟩
      · exact h e he
  | readOnly b => exact h
  | reset =>
    simp only [Op.run, Stack.reset]
    split
    · exact h
    · simp

/-- **C108**: whatever is done to an empty stack, each number below the length shows a fit
context, as long as `Replace` and `insert` are given fit contexts.  Missing: these two with
other values, see `C108_counterexample` and `C108_insert_counterexample`. -/
theorem C108_shows_partial (far : Far) (hf : Mild far) (ops : List Op) (ho : ∀ o ∈ ops, o.Clean) :
    Shows far (ops.foldl (Op.run far) ⟨false, []⟩) := by
  have key : ∀ (ops : List Op) (s : Stack), (∀ o ∈ ops, o.Clean) → (∀ e ∈ s.es, ∃ c, e = some c ∧ Fit c) →
      ∀ e ∈ (ops.foldl (Op.run far) s).es, ∃ c, e = some c ∧ Fit c := by
    intro ops
    induction ops with
    | nil => exact fun s _ h => h
    | cons o ops ih =>
      exact fun s ho h => ih _ (fun x hx => ho x (by simp [hx])) (run_fit hf h o (ho o (by simp)))
  intro i hi
  obtain ⟨c, h1, h2⟩ := key ops ⟨false, []⟩ ho (by simp) _ (List.getElem_mem hi)
  refine ⟨c, ?_, h2⟩
  unfold Stack.index Find.stackIndex
  rw [if_pos ⟨by omega, by omega⟩]
  simp [List.getElem?_eq_getElem hi, h1]

/-- **C108**: a read-only stack stays as it is until `ReadOnly` is called again. -/
theorem C108_readonly (far : Far) (s : Stack) (ops : List Op) (hr : s.ro = true)
    (ho : ∀ o ∈ ops, ∀ b, o ≠ .readOnly b) : ops.foldl (Op.run far) s = s := by
  induction ops with
  | nil => rfl
  | cons o ops ih =>
    have : o.run far s = s := by
      cases o with
      | readOnly b => exact absurd rfl (ho _ (by simp) b)
      | insert x i => cases x <;> simp [Op.run, Stack.insert, hr]
      | _ => simp [Op.run, Stack.push, Stack.pop, Stack.remove, Stack.replace, Stack.reset, hr]
    rw [List.foldl_cons, this]
    exact ih fun x hx => ho x (by simp [hx])

example : ([.push true [some (.rules .and false [])], .pop none, .remove 0] : List Op).foldl (Op.run calm)
    ⟨true, [some (.rules .or false [])]⟩ = ⟨true, [some (.rules .or false [])]⟩ :=
  C108_readonly _ _ _ rfl (by simp)

/-- **C108**: `ReadOnly` does not touch the entries, and decides by its argument, or without
one by what was not so before, whether a rule can be pushed and anything can be taken out;
`remove` and `insert` tell so. -/
theorem C108_switch (far : Far) (stop : Bool) (s : Stack) (state : List Bool) (c : BCtx) (hc : Fit c)
    (still : Option BCtx) (i : Nat) (hi : i < s.es.length) :
    (s.readOnly state).es = s.es ∧
    ((s.readOnly state).readOnly [s.ro] = s) ∧
    ((s.readOnly []).readOnly [] = s) ∧
    (((s.readOnly state).push stop [some c]).es.length =
      s.es.length + if (state.head?.getD !s.ro) then 0 else 1) ∧
    (((s.readOnly state).pop still).1.es.length + (if (state.head?.getD !s.ro) then 0 else 1) = s.es.length) ∧
    (((s.readOnly state).remove far i).2 = !state.head?.getD !s.ro) ∧
    (((s.readOnly state).insert far (some c) i).2 = !state.head?.getD !s.ro) := by
  have hro : (s.readOnly state).ro = state.head?.getD !s.ro := by cases state <;> rfl
  have hes : (s.readOnly state).es = s.es := rfl
  have hacc : acceptItem (some c) = some (some c) := by
    cases c with
    | zero => exact hc.elim
    | rules w p es => rfl
    | rule r =>
      obtain ⟨k, hk, hr⟩ := hc
      simp only [acceptItem, acceptB]
      rw [if_pos (by rw [hr]; exact hk)]; rfl
  refine ⟨rfl, rfl, ?_, ?_, ?_, ?_, ?_⟩
  · cases s; simp [Stack.readOnly]
  · unfold Stack.push
    rw [hro]
    cases state.head?.getD !s.ro
    · simp [stackPush, hacc, hes]
    · simp [hes]
  · unfold Stack.pop
    rw [hro]
    cases state.head?.getD !s.ro
    · simp [hes]; omega
    · simp [hes]
  · unfold Stack.remove
    rw [hro, hes]
    cases state.head?.getD !s.ro
    · simp [hi]
    · rfl
  · simp only [Stack.insert]
    rw [hro, hes]
    cases state.head?.getD !s.ro
    · simp [Nat.le_of_lt hi]
    · rfl

example : Fit (.rules .and false []) ∧ (0 : Nat) < (Stack.mk true [some .zero]).es.length := ⟨trivial, by decide⟩

/-- **C108**: each entry stays in its place: after `insert` the later ones are one further,
after `remove` one nearer, and `Replace` and `Pop` leave the others alone. -/
theorem C108_places (far : Far) (s : Stack) (hr : s.ro = false) (c : BCtx) (i j : Nat) (still : Option BCtx) :
    (i ≤ s.es.length → j ≤ s.es.length →
      ((s.insert far (some c) i).1.index far j =
        if j < i then s.index far j else if j = i then some c else s.index far (j - 1 : Nat)) ∧
      (s.insert far (some c) i).1.es.length = s.es.length + 1 ∧ (s.insert far (some c) i).2 = true) ∧
    (i < s.es.length → j + 1 < s.es.length →
      ((s.remove far i).1.index far j = if j < i then s.index far j else s.index far (j + 1 : Nat)) ∧
      (s.remove far i).1.es.length + 1 = s.es.length ∧ (s.remove far i).2 = true) ∧
    (i < s.es.length → j < s.es.length →
      ((s.replace far (some c) i).index far j = if j = i then some c else s.index far j) ∧
      (s.replace far (some c) i).es.length = s.es.length) ∧
    (j + 1 < s.es.length → (s.pop still).1.index far j = s.index far j ∧
      (s.pop still).2 = s.index far (s.es.length - 1 : Nat) ∧ (s.pop still).1.es.length + 1 = s.es.length) := by
  have hix : ∀ (es : List Item) (b : Bool) (j : Nat), j < es.length → Stack.index far ⟨b, es⟩ j = es[j]?.join := by
    intro es b j hj
    unfold Stack.index Find.stackIndex
    rw [if_pos ⟨by omega, by simp; omega⟩]
    simp
  obtain ⟨ro, es⟩ := s
  simp only at hr
  subst hr
  refine ⟨fun hi hj => ?_, fun hi hj => ?_, fun hi hj => ?_, fun hj => ?_⟩
  · have hi : i ≤ es.length := hi
    have hj : j ≤ es.length := hj
    have e : Stack.insert far ⟨false, es⟩ (some c) i = (⟨false, es.insertIdx i (some c)⟩, true) := by
      simp [Stack.insert, hi]
    rw [e]
    have hl : (es.insertIdx i (some c)).length = es.length + 1 := List.length_insertIdx_of_le_length hi _
    refine ⟨?_, hl, rfl⟩
    rw [hix _ _ _ (by omega), List.getElem?_insertIdx]
    by_cases h1 : j < i
    · rw [if_pos h1, if_pos h1, hix _ _ _ (by omega)]
    · rw [if_neg h1, if_neg h1]
      by_cases h2 : j = i
      · simp [h2, hi]
      · rw [if_neg h2, if_neg h2, hix _ _ _ (by omega)]
  · have hi : i < es.length := hi
    have hj : j + 1 < es.length := hj
    have e : Stack.remove far ⟨false, es⟩ i = (⟨false, es.eraseIdx i⟩, true) := by
      simp [Stack.remove, hi]
    rw [e]
    have hl : (es.eraseIdx i).length = es.length - 1 := List.length_eraseIdx_of_lt hi
    refine ⟨?_, by show (es.eraseIdx i).length + 1 = es.length; omega, rfl⟩
    rw [hix _ _ _ (by omega), List.getElem?_eraseIdx]
    by_cases h1 : j < i
    · rw [if_pos h1, if_pos h1, hix _ _ _ (by omega)]
    · rw [if_neg h1, if_neg h1, hix _ _ _ (by omega)]
  · have hi : i < es.length := hi
    have hj : j < es.length := hj
    have e : Stack.replace far ⟨false, es⟩ (some c) i = ⟨false, es.set i (some c)⟩ := by
      simp [Stack.replace, hi]
    rw [e]
    refine ⟨?_, by simp⟩
    rw [hix _ _ _ (by simp; omega), List.getElem?_set]
    by_cases h : i = j
    · subst h; simp [hi]
    · rw [if_neg h, if_neg fun e => h e.symm, hix _ _ _ hj]
  · have hj : j + 1 < es.length := hj
    have e : Stack.pop still ⟨false, es⟩ = (⟨false, es.dropLast⟩, es.getLast?.join) := rfl
    rw [e]
    refine ⟨?_, ?_, by simp; omega⟩
    · rw [hix _ _ _ (by simp; omega), hix _ _ _ (by omega), List.getElem?_dropLast, if_pos (by omega)]
    · rw [hix _ _ _ (by show es.length - 1 < _; omega), List.getLast?_eq_getElem?]

example : (Stack.insert calm ⟨false, [some (.rules .or false [])]⟩ (some (.rules .and false [])) 0).1.index calm 1
    = some (.rules .or false []) :=
  ((C108_places calm ⟨false, [some (.rules .or false [])]⟩ rfl (.rules .and false []) 0 1 none).1
    (by decide) (by decide)).1

/-- What the entries of a stack of target rules have to be. -/
def TFit (es : List TRule) : Prop :=
  es.length ≤ 9 ∧ (∀ r ∈ es, r.isZero = false ∧ r.keyword ≠ 0) ∧ es.Pairwise fun a b => a.keyword ≠ b.keyword

theorem TFit.sublist {es es' : List TRule} (h : TFit es) (hs : es'.Sublist es) : TFit es' :=
  ⟨Nat.le_trans hs.length_le h.1, fun r hr => h.2.1 r (hs.subset hr), h.2.2.sublist hs⟩

theorem TFit.push {stop : Bool} {es : List TRule} (xs : List TRArg) (h : TFit es) : TFit (TRs.push stop es xs) := by
  unfold TRs.push
  induction xs generalizing es with
  | nil => exact h
  | cons x xs ih =>
    simp only [stackPush]
    split
    · rename_i e he
      refine ih ?_
      cases x with
      | other => simp [acceptTR] at he
      | rule r =>
        simp only [acceptTR] at he
        by_cases h1 : es.length ≥ 9
        · simp [h1] at he
        by_cases h2 : r.isZero
        · simp [h2] at he
        by_cases h3 : r.keyword = 0
        · simp [h3] at he
        by_cases h4 : containsKw es (TargetKeyword.string r.keyword)
        · simp [h4] at he
        rw [if_neg h1, if_neg h2, if_neg h3, if_neg h4] at he
        cases he
        refine ⟨by simp; omega, fun q hq => ?_, ?_⟩
        · rcases List.mem_append.1 hq with hq | hq
          · exact h.2.1 q hq
          · rw [List.mem_singleton.1 hq]
            exact ⟨by simpa using h2, h3⟩
        · rw [List.pairwise_append]
          refine ⟨h.2.2, by simp, fun a ha b hb hab => h4 ?_⟩
          rw [List.mem_singleton.1 hb] at hab
          unfold containsKw
          rw [List.any_eq_true]
          refine ⟨a, ha, ?_⟩
          rw [hab]
          simp [Str.eqFold]
    · split
      · exact h
      · exact ih h

/-- **C108**: whatever is done to an empty stack of target rules, it holds no more than nine
rules, and each number below its length shows a rule with a known keyword, which no other
number shows. -/
theorem C108_targets (fr : List TRule → Int → List TRule) (fi : List TRule → Int → Option TRule)
    (hf : ∀ es i, (fr es i).Sublist es) (ops : List TOp) :
    let s := ops.foldl (TOp.run fr) ⟨false, []⟩
    s.es.length ≤ 9 ∧
    ∀ i j : Nat, i < s.es.length → j < s.es.length →
      (s.index fi i).isZero = false ∧ (s.index fi i).keyword ≠ 0 ∧
      ((s.index fi i).keyword = (s.index fi j).keyword → i = j) := by
  have key : ∀ (ops : List TOp) (s : TStack), TFit s.es → TFit (ops.foldl (TOp.run fr) s).es := by
    intro ops
    induction ops with
    | nil => exact fun s h => h
    | cons o ops ih =>
      intro s h
      refine ih _ ?_
      cases o with
      | push stop xs =>
        simp only [TOp.run]
        split
        · exact h
        · exact h.push xs
      | pop =>
        simp only [TOp.run]
        split
        · exact h
        · exact h.sublist (List.dropLast_sublist _)
      | remove i =>
        simp only [TOp.run]
        split
        · exact h
        split
        · exact h.sublist (List.eraseIdx_sublist _ _)
        · exact h.sublist (hf _ _)
      | readOnly b => exact h
      | reset =>
        simp only [TOp.run]
        split
        · exact h
        · exact h.sublist (List.nil_sublist _)
  intro s
  have h : TFit s.es := key ops ⟨false, []⟩ ⟨by simp, by simp, by simp⟩
  refine ⟨h.1, fun i j hi hj => ?_⟩
  have ix : ∀ k : Nat, (hk : k < s.es.length) → s.index fi k = s.es[k] := by
    intro k hk
    unfold TStack.index Find.indexR Find.stackIndex
    rw [if_pos ⟨by omega, by omega⟩]
    simp [List.getElem?_eq_getElem hk]
  rw [ix i hi, ix j hj]
  refine ⟨(h.2.1 _ (List.getElem_mem hi)).1, (h.2.1 _ (List.getElem_mem hi)).2, fun e => ?_⟩
  rcases Nat.lt_trichotomy i j with hlt | heq | hgt
  · exact absurd e (List.pairwise_iff_getElem.1 h.2.2 i j hi hj hlt)
  · exact heq
  · exact absurd e.symm (List.pairwise_iff_getElem.1 h.2.2 j i hj hi hgt)

/-- **C108**: so does a read-only stack of target rules stay as it is. -/
theorem C108_targets_readonly (fr : List TRule → Int → List TRule) (s : TStack) (ops : List TOp)
    (hr : s.ro = true) (ho : ∀ o ∈ ops, ∀ b, o ≠ .readOnly b) : ops.foldl (TOp.run fr) s = s := by
  induction ops with
  | nil => rfl
  | cons o ops ih =>
    have : o.run fr s = s := by
      cases o with
      | readOnly b => exact absurd rfl (ho _ (by simp) b)
      | _ => simp [TOp.run, hr]
    rw [List.foldl_cons, this]
    exact ih fun x hx => ho x (by simp [hx])

example : ∃ ops : List TOp, (∀ o ∈ ops, ∀ b, o ≠ .readOnly b) ∧
    (ops.foldl (TOp.run fun es _ => es) ⟨false, []⟩).es.length = 1 :=
  ⟨[.push false [.rule (TR (.target Target) (.cop 1) .nil), .rule (TR (.target TargetTo) (.cop 1) .nil), .other],
    .remove 0], by simp, by decide +kernel⟩

example : ∃ ops : List Op, (∀ o ∈ ops, o.Clean) ∧ (ops.foldl (Op.run calm) ⟨false, []⟩).es.length = 2 ∧ Mild calm := by
  refine ⟨[.push true [some (.rules .and false []), none], .insert (some (.rules .or false [])) 0, .readOnly [],
    .replace (some (.rules .not false [])) 1], ?_, rfl, calm_mild⟩
  intro o ho
  simp only [List.mem_cons, List.not_mem_nil, or_false] at ho
  rcases ho with rfl | rfl | rfl | rfl
  · trivial
  · intro c hc; cases hc; trivial
  · trivial
  · exact ⟨_, rfl, trivial⟩

end Verif.Edit
