import Verif.Model.Ops
import Verif.Props.Ops
import Verif.Props.PB

/-!
# C79: values given at creation are the values pushed
-/

namespace Verif

/-- Arguments given to the stack one after another. -/
def oneByOne {A E : Type} (accept : List E → A → Option E) (es : List E) (xs : List A) : List E :=
  xs.foldl (fun es x => stackPush true accept es [x]) es

theorem oneByOne_grows {A E : Type} (accept : List E → A → Option E) (xs : List A) :
    ∀ es, es <+: oneByOne accept es xs := by
  induction xs with
  | nil => exact fun es => List.prefix_refl es
  | cons x xs ih =>
    intro es
    refine List.IsPrefix.trans ?_ (ih _)
    show es <+: stackPush true accept es [x]
    rw [stackPush]
    cases accept es x with
    | none => exact List.prefix_refl es
    | some e => exact List.prefix_append es [e]

theorem stackPush_false {A E : Type} (accept : List E → A → Option E) (xs : List A) :
    ∀ es, stackPush false accept es xs = oneByOne accept es xs := by
  induction xs with
  | nil => exact fun _ => rfl
  | cons x xs ih =>
    intro es
    show _ = oneByOne accept (stackPush true accept es [x]) xs
    rw [stackPush, stackPush]
    cases accept es x with
    | none => exact ih es
    | some e => exact ih _

theorem stackPush_true {A E : Type} (accept : List E → A → Option E) (xs : List A) :
    ∀ es, stackPush true accept es xs <+: oneByOne accept es xs := by
  induction xs with
  | nil => exact fun es => List.prefix_refl es
  | cons x xs ih =>
    intro es
    show _ <+: oneByOne accept (stackPush true accept es [x]) xs
    rw [stackPush, stackPush]
    cases accept es x with
    | none => exact oneByOne_grows accept xs es
    | some e => exact ih _

/-- **C79**, the full claim for lists of filter operations: `AFOs(x...)` holds what
`AFOs().Push(x...)` holds. -/
def MadeAsPushedOps : Prop := ∀ stop xs, Filter.makeAFOs stop xs = (Filter.makeAFOs stop []).push xs

/-- **C79** fails for lists of filter operations: texts given to `AFOs` are dropped. -/
theorem C79_counterexample_operations : ¬ MadeAsPushedOps := by
  intro h
  have := congrArg (fun r : Filter.AFOs => r.entries.length) (h true [.str b!"add=cn:(a=b)"])
  revert this
  decide +kernel

/-- **C79**, the full claim for lists of permission bind rules. -/
def MadeAsPushedRules : Prop := ∀ w rd stop xs, PB.PBRs w rd stop xs = PB.push w rd (PB.PBRs w rd stop []) xs

/-- **C79** fails for lists of permission bind rules: texts given to `PBRs` are dropped. -/
theorem C79_counterexample_permissions : ¬ MadeAsPushedRules := by
  intro h
  have := congrArg List.length (h PB.plainWorld (fun _ => PB.sampleRule b!"ssf") true [.str b!"x"])
  revert this
  decide +kernel

/-- **C79** as far as it holds for lists of filter operations.  Missing: texts; and, if the stack
ends a call at the first argument it refuses, what comes after that argument. -/
theorem C79_operations_partial (xs : List Filter.AFOsArg) (h : ∀ s, .str s ∉ xs) :
    (Filter.makeAFOs false xs) = (Filter.makeAFOs false []).push xs ∧
    (Filter.makeAFOs true xs).entries <+: ((Filter.makeAFOs true []).push xs).entries := by
  have step : ∀ (r : Filter.AFOs) (x : Filter.AFOsArg), (∀ s, x ≠ .str s) →
      r.push1 x = { r with entries := stackPush true Filter.acceptAFO r.entries [x] } := by
    intro r x hx
    rw [stackPush]
    cases x with
    | str s => exact absurd rfl (hx s)
    | other => simp [Filter.AFOs.push1, Filter.acceptAFO, Filter.AFOs.contains]
    | afo a =>
      rcases Filter.accept_push r.entries (.afo a) with ⟨b, h1, h2, h3⟩ | h2
      · injection h1 with h1
        subst h1
        rw [h2, Filter.AFOs.push1, h3]; rfl
      · rw [h2, Filter.AFOs.push1]
        unfold Filter.pushAFO
        unfold Filter.acceptAFO at h2
        by_cases hc : Filter.AFOs.contains r.entries (.afo a) = true
        · rw [if_pos (show Filter.containsText (r.entries.map Filter.AFO.string) a.string = true from hc)]; rfl
        · rw [if_neg (show ¬Filter.containsText (r.entries.map Filter.AFO.string) a.string = true from hc)]
          rw [if_neg hc] at h2
          simp only at h2
          split at h2
          · cases h2
          · next hl => rw [if_neg hl]; rfl
  have all : ∀ (xs : List Filter.AFOsArg) (r : Filter.AFOs), (∀ s, .str s ∉ xs) →
      r.push xs = { r with entries := oneByOne Filter.acceptAFO r.entries xs } := by
    intro xs
    induction xs with
    | nil => exact fun _ _ => rfl
    | cons x xs ih =>
      intro r hx
      have h1 : r.push (x :: xs) = (r.push1 x).push xs := rfl
      rw [h1, step r x (fun s e => hx s (by simp [e])), ih _ fun s hs => hx s (by simp [hs])]
      rfl
  constructor
  · rw [all _ _ h]
    unfold Filter.makeAFOs
    rw [stackPush_false]; rfl
  · rw [all _ _ h]
    exact stackPush_true _ _ _

/-- **C79** as far as it holds for lists of permission bind rules.  Missing: as before. -/
theorem C79_permissions_partial (w : PB.World) (rd : Str → Option PB.Store) (xs : List PB.PArg)
    (h : ∀ s, .str s ∉ xs) :
    PB.PBRs w rd false xs = PB.push w rd (PB.PBRs w rd false []) xs ∧
    PB.PBRs w rd true xs <+: PB.push w rd (PB.PBRs w rd true []) xs := by
  have all : ∀ (xs : List PB.PArg) (es : List PB.PBRule), (∀ s, .str s ∉ xs) →
      PB.push w rd es xs = oneByOne (PB.accept w rd) es xs := by
    intro xs
    induction xs with
    | nil => exact fun _ _ => rfl
    | cons x xs ih =>
      intro es hx
      have hx' : ∀ s, PB.PArg.str s ∉ xs := fun s hs => hx s (by simp [hs])
      cases x with
      | str s => exact absurd (by simp) (hx s)
      | rule r => exact ih _ hx'
      | nil => exact ih _ hx'
      | other => exact ih _ hx'
  constructor
  · rw [all _ _ h]; exact stackPush_false _ _ _
  · rw [all _ _ h]; exact stackPush_true _ _ _

/-- **C79.** A text given to `AFOs` or to `PBRs` never becomes a member: the members are among
the other arguments. -/
theorem C79_texts_dropped (stop : Bool) (xs : List Filter.AFOsArg) :
    ∀ o ∈ (Filter.makeAFOs stop xs).entries, .afo o ∈ xs := by
  have key : ∀ (xs : List Filter.AFOsArg) (es : List Filter.AFO),
      ∀ o ∈ stackPush stop Filter.acceptAFO es xs, o ∈ es ∨ .afo o ∈ xs := by
    intro xs
    induction xs with
    | nil => exact fun es o ho => Or.inl ho
    | cons x xs ih =>
      intro es o ho
      rw [stackPush] at ho
      rcases Filter.accept_push es x with ⟨a, h1, h2, _⟩ | h2
      · rw [h2] at ho
        rcases ih _ o ho with h | h
        · rcases List.mem_append.1 h with h | h
          · exact Or.inl h
          · rw [List.mem_singleton.1 h, ← h1]; exact Or.inr (by simp)
        · exact Or.inr (by simp [h])
      · rw [h2] at ho
        simp only at ho
        split at ho
        · exact Or.inl ho
        · rcases ih _ o ho with h | h
          · exact Or.inl h
          · exact Or.inr (by simp [h])
  intro o ho
  rcases key xs [] o ho with h | h
  · cases h
  · exact h

/-- **C79.** A list made without further ado is written with commas, with or without arguments and
after any pushes. -/
theorem C79_commas (stop : Bool) (xs ys : List Filter.AFOsArg) :
    ((Filter.makeAFOs stop xs).push ys).string
      = Str.join b!"," (((Filter.makeAFOs stop xs).push ys).entries.map Filter.AFO.string) := by
  have h : ∀ (ys : List Filter.AFOsArg) (r : Filter.AFOs), r.delim = 44 → (r.push ys).delim = 44 := by
    intro ys
    induction ys with
    | nil => intro r h; exact h
    | cons y ys ih =>
      intro r h
      refine ih (r.push1 y) ?_
      cases y <;> simp only [Filter.AFOs.push1] <;> (repeat' split) <;> exact h
  simp [Filter.AFOs.string, h ys _ (show (Filter.makeAFOs stop xs).delim = 44 from rfl)]

example : (Filter.makeAFOs false [.str b!"add=cn:(a=b)", .afo (Filter.opWith true [(b!"cn", b!"(a=b)")])]).entries
      = [Filter.opWith true [(b!"cn", b!"(a=b)")]] ∧
    (PB.PBRs PB.plainWorld (fun _ => none) true [.rule (PB.sampleRule b!"ssf"), .rule (PB.sampleRule b!"ip")]).length = 2 := by
  refine ⟨by decide +kernel, by decide +kernel⟩

end Verif
