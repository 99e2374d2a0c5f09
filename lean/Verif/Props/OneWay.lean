import Verif.Props.Given
import Verif.Props.Applies

/-!
# Adding a rule works in one direction (C130)
-/

namespace Verif.OneWay
open Verif Verif.Spec Verif.Bind Verif.Rules Verif.PB Verif.Decide Verif.Applies Verif.Given

/-- A permission bind rule that allows, or denies, and nothing else: if it is complete, its permission is of this
kind. -/
def Is (allow : Bool) (r : PBRule) : Prop := ∀ c b, r = some ⟨some c, b⟩ → c.disp = allow

theorem stackPush_prefix {A E : Type} {stop : Bool} {accept : List E → A → Option E} (xs : List A) :
    ∀ es : List E, es <+: stackPush stop accept es xs := by
  induction xs with
  | nil => exact fun es => List.prefix_refl es
  | cons x xs ih =>
    intro es
    rw [stackPush]
    cases accept es x with
    | some e => exact (List.prefix_append es [e]).trans (ih _)
    | none =>
      cases stop
      · exact ih es
      · exact List.prefix_refl es

theorem push_prefix (w : World) (rd : Str → Option Store) (xs : List PArg) : ∀ es, es <+: PB.push w rd es xs := by
  induction xs with
  | nil => exact fun es => List.prefix_refl es
  | cons x xs ih =>
    intro es
    cases x with
    | str s =>
      rw [push]
      cases rd s with
      | none => exact List.prefix_refl es
      | some r => exact (stackPush_prefix _ es).trans (ih _)
    | rule r => exact (stackPush_prefix _ es).trans (ih _)
    | nil => exact (stackPush_prefix _ es).trans (ih _)
    | other => exact (stackPush_prefix _ es).trans (ih _)

theorem gives_subset {l l' : List PBRule} (h : l ⊆ l') {neg : List Bool → Bool} {τ : BRule → Bool} {allow : Bool}
    {q : Priv} (hg : Gives neg τ allow q l) : Gives neg τ allow q l' := by
  obtain ⟨c, b, hm, h1⟩ := hg
  exact ⟨c, b, h hm, h1⟩

/-- What follows for the decisions from the rules that came in, if the others stayed. -/
theorem one_way {l l' : List PBRule} (hs : l ⊆ l') (neg : List Bool → Bool) (τ : BRule → Bool) (q : Priv) :
    (∀ allow, Gives neg τ allow q l → Gives neg τ allow q l') ∧
    (Gives neg τ false q l → ¬ Permits neg τ q l') ∧
    ((∀ r ∈ l', r ∈ l ∨ Is true r) → Permits neg τ q l → Permits neg τ q l') ∧
    ((∀ r ∈ l', r ∈ l ∨ Is false r) → Permits neg τ q l' → Permits neg τ q l) := by
  have back : ∀ a b : Bool, a ≠ b → (∀ r ∈ l', r ∈ l ∨ Is a r) → Gives neg τ b q l' → Gives neg τ b q l := by
    rintro a b hab ho ⟨c, x, hm, h1, h2⟩
    rcases ho _ hm with h | h
    · exact ⟨c, x, h, h1, h2⟩
    · exact absurd ((h c (some x) rfl).symm.trans h1) hab
  refine ⟨fun _ => gives_subset hs, fun h hp => hp.2 (gives_subset hs h), fun ho hp => ?_, fun ho hp => ?_⟩
  · exact ⟨gives_subset hs hp.1, fun h => hp.2 (back true false (by decide) ho h)⟩
  · exact ⟨back false true (by decide) ho hp.1, fun h => hp.2 (gives_subset hs h)⟩

/-- **C130**, lists of permission bind rules: pushing rules takes away nothing that was allowed and nothing that was
denied, so that what was denied is not permitted afterwards; pushing rules that allow takes away no permission, and
pushing rules that deny gives none. -/
theorem C130_rules (w : World) (rd : Str → Option Store) (es : List PBRule) (xs : List PArg)
    (neg : List Bool → Bool) (τ : BRule → Bool) (q : Priv) :
    (∀ allow, Gives neg τ allow q es → Gives neg τ allow q (PB.push w rd es xs)) ∧
    (Gives neg τ false q es → ¬ Permits neg τ q (PB.push w rd es xs)) ∧
    ((∀ x ∈ xs, ∀ r, Offers rd x r → Is true r) → Permits neg τ q es → Permits neg τ q (PB.push w rd es xs)) ∧
    ((∀ x ∈ xs, ∀ r, Offers rd x r → Is false r) → Permits neg τ q (PB.push w rd es xs) → Permits neg τ q es) := by
  have key := one_way (push_prefix w rd xs es).subset neg τ q
  refine ⟨key.1, key.2.1, fun h => key.2.2.1 ?_, fun h => key.2.2.2 ?_⟩
  all_goals exact push_mem xs (fun x hx r ho => .inr (h x hx r ho)) fun r hr => .inl hr

/-- A rule that allows, or denies, reading, with a bind rule of the given keyword. -/
def sample (allow : Bool) (kw : Str) : PBRule :=
  some ⟨some ⟨allow, 1#16⟩, some (.rule ⟨⟨true, kw, Eq'⟩, .text b!"x", false, false, false⟩)⟩

theorem sample_is (allow : Bool) (kw : Str) : Is allow (sample allow kw) := by
  rintro c b h
  simp only [sample, Option.some.injEq, Store.mk.injEq] at h
  rw [← h.1]

theorem sample_push : PB.push plainWorld (fun _ => none) [sample true b!"ip"] [.rule (sample false b!"dns")] =
    [sample true b!"ip", sample false b!"dns"] := by
  have : accept plainWorld (fun _ => none) [sample true b!"ip"] (.rule (sample false b!"dns")) =
      some (sample false b!"dns") := by
    have h : contains plainWorld (fun _ => none) [sample true b!"ip"] (.rule (sample false b!"dns")) = false := by
      decide +kernel
    simp only [accept, h]
    rfl
  simp only [PB.push, push1, stackPush, this]
  rfl

/-- Where the bind rule of the denial does not hold, the permission is still given. -/
example : (∀ x ∈ [PArg.rule (sample false b!"dns")], ∀ r, Offers (fun _ => none) x r → Is false r) ∧
    Permits (fun _ => false) (fun r => decide (r.core.kw = b!"ip")) .read
      (PB.push plainWorld (fun _ => none) [sample true b!"ip"] [.rule (sample false b!"dns")]) ∧
    ¬ Permits (fun _ => false) (fun _ => true) .read
      (PB.push plainWorld (fun _ => none) [sample true b!"ip"] [.rule (sample false b!"dns")]) := by
  rw [sample_push]
  refine ⟨?_, ⟨⟨_, _, List.mem_cons_self .., rfl, by decide, by decide⟩, ?_⟩, ?_⟩
  · intro x hx r ho
    rw [List.mem_singleton] at hx
    subst hx
    rcases ho.2 with h | ⟨s, st, h, -⟩
    · cases h; exact sample_is false _
    · cases h
  · rintro ⟨c, b, hm, h1, -, h3⟩
    simp only [sample, List.mem_cons, Option.some.injEq, Store.mk.injEq, List.not_mem_nil, or_false] at hm
    rcases hm with ⟨rfl, rfl⟩ | ⟨rfl, rfl⟩
    · cases h1
    · revert h3; decide
  · exact fun h => h.2 ⟨_, _, List.mem_cons_of_mem _ (List.mem_cons_self ..), rfl, by decide, rfl⟩

/-- **C130**, `Pop`: taking away a rule that allows gives no permission, taking away one that denies takes none, and
nothing more is allowed or denied afterwards. -/
theorem C130_rules_pop (es : List PBRule) (neg : List Bool → Bool) (τ : BRule → Bool) (q : Priv) :
    (∀ allow, Gives neg τ allow q (PB.pop es).1 → Gives neg τ allow q es) ∧
    (Is true (PB.pop es).2 → Permits neg τ q (PB.pop es).1 → Permits neg τ q es) ∧
    (Is false (PB.pop es).2 → Permits neg τ q es → Permits neg τ q (PB.pop es).1) := by
  have hs : (PB.pop es).1 ⊆ es := List.dropLast_subset es
  have hm : ∀ r ∈ es, r ∈ (PB.pop es).1 ∨ r = (PB.pop es).2 := by
    intro r hr
    rcases List.eq_nil_or_concat es with rfl | ⟨l, a, rfl⟩
    · cases hr
    · simp only [PB.pop, List.concat_eq_append, List.dropLast_concat, List.getLast?_concat, Option.getD_some]
      simpa [or_comm] using hr
  have key := one_way hs neg τ q
  refine ⟨key.1, fun h => key.2.2.1 fun r hr => ?_, fun h => key.2.2.2 fun r hr => ?_⟩
  all_goals
    rcases hm r hr with h' | h'
    · exact .inl h'
    · exact .inr (h' ▸ h)

example : Is false (PB.pop [sample true b!"ip", sample false b!"dns"]).2 ∧
    (PB.pop [sample true b!"ip", sample false b!"dns"]).1 = [sample true b!"ip"] :=
  ⟨sample_is false _, rfl⟩

/-- **C130**, target rules: pushing makes the list apply nowhere where it did not apply before, and popping makes it
apply wherever it did. -/
theorem C130_targets (stop : Bool) (es : List TRule) (xs : List TRArg) (τ : TRule → Prop) :
    (Apply τ (TRs.push stop es xs) → Apply τ es) ∧ (Apply τ es → Apply τ (TRs.pop es).1) :=
  ⟨fun h r hr => h r ((stackPush_prefix xs es).subset hr), fun h r hr => h r (List.dropLast_subset es hr)⟩

example : (TRs.push true [TR (.target TargetScope) (.cop Eq') (.scope SearchScope.Subtree)]
      [.rule (TR (.target TargetFilter) (.cop Eq') (.filter (some b!"(a=b)")))]).length = 2 := by
  decide +kernel

theorem evals_append (neg : List Bool → Bool) (τ : BRule → Bool) (a b : List BCtx) :
    BCtx.evals neg τ (a ++ b) = BCtx.evals neg τ a ++ BCtx.evals neg τ b := by
  induction a with
  | nil => rfl
  | cons e a ih => simp [BCtx.evals, ih]

/-- **C130**, bind rules: a stack of the word AND that something is pushed onto holds at most where it held before,
one of the word OR at least there. -/
theorem C130_bind_rules (stop p : Bool) (es : List BCtx) (xs : List Bind.BArg) (neg : List Bool → Bool)
    (τ : BRule → Bool) :
    ((BCtx.rules .and p (pushB stop es xs)).eval neg τ = true → (BCtx.rules .and p es).eval neg τ = true) ∧
    ((BCtx.rules .or p es).eval neg τ = true → (BCtx.rules .or p (pushB stop es xs)).eval neg τ = true) := by
  obtain ⟨t, ht⟩ := stackPush_prefix (stop := stop) (accept := fun _ => acceptB) xs es
  have ht : pushB stop es xs = es ++ t := ht.symm
  rw [ht]
  simp only [BCtx.eval, evals_append, Word.eval, List.all_append, List.any_append, Bool.and_eq_true, Bool.or_eq_true]
  exact ⟨And.left, Or.inl⟩

example : (BCtx.rules .and false (pushB true [] [.ctx (.rules .or false [])])).eval (fun _ => false) (fun _ => true) =
    false ∧ (BCtx.rules .and false []).eval (fun _ => false) (fun _ => true) = true := by
  decide

/-! ## Instructions -/

/-- The permission bind rules among the arguments of `Instruction.Set`. -/
def Among (xs : List Ins.SetArg) (r : PBRule) : Prop := ∃ x ∈ xs, x = .pbr r ∨ ∃ rs, x = .pbrs rs ∧ r ∈ rs

theorem foldl_prefix {α β : Type} {f : List β → α → List β} (h : ∀ es x, es <+: f es x) (xs : List α) :
    ∀ es, es <+: xs.foldl f es := by
  induction xs with
  | nil => exact fun es => List.prefix_refl es
  | cons x xs ih => exact fun es => (h es x).trans (ih _)

theorem set_grows (w : World) (rd : Str → Option Store) (xs : List Ins.SetArg) (b : Ins.Body) :
    b.trs <+: (Ins.setBody w rd b xs).trs ∧ b.pbrs <+: (Ins.setBody w rd b xs).pbrs ∧
    ∀ r ∈ (Ins.setBody w rd b xs).pbrs, r ∈ b.pbrs ∨ Among xs r := by
  have one : ∀ (es : List PBRule) (r e : PBRule), e ∈ PB.push w rd es [.rule r] → e ∈ es ∨ e = r := by
    intro es r e he
    refine push_mem (G := fun e => e ∈ es ∨ e = r) [.rule r] (fun x hx r' ho => ?_) (fun e he => .inl he) e he
    rw [List.mem_singleton] at hx
    subst hx
    rcases ho.2 with h | ⟨s, st, h, -⟩
    · cases h; exact .inr rfl
    · cases h
  induction xs generalizing b with
  | nil => exact ⟨List.prefix_refl _, List.prefix_refl _, fun r hr => .inl hr⟩
  | cons x xs ih =>
    obtain ⟨h1, h2, h3⟩ := ih (Ins.assert1 w rd b x)
    have step : b.trs <+: (Ins.assert1 w rd b x).trs ∧ b.pbrs <+: (Ins.assert1 w rd b x).pbrs ∧
        ∀ r ∈ (Ins.assert1 w rd b x).pbrs, r ∈ b.pbrs ∨ Among [x] r := by
      have same : ∀ b' : Ins.Body, b'.trs = b.trs → b'.pbrs = b.pbrs → b.trs <+: b'.trs ∧ b.pbrs <+: b'.pbrs ∧
          ∀ r ∈ b'.pbrs, r ∈ b.pbrs ∨ Among [x] r := by
        intro b' h1 h2
        rw [h1, h2]
        exact ⟨List.prefix_refl _, List.prefix_refl _, fun r hr => .inl hr⟩
      cases x with
      | other => exact same _ rfl rfl
      | str s =>
        refine same _ ?_ ?_ <;> simp only [Ins.assert1, Ins.setLabel] <;> split <;> rfl
      | tr t => exact ⟨stackPush_prefix _ _, List.prefix_refl _, fun r hr => .inl hr⟩
      | trs ts =>
        refine ⟨foldl_prefix (fun es t => ?_) ts _, List.prefix_refl _, fun r hr => .inl hr⟩
        simp only [Ins.pushTarget]
        split
        · exact stackPush_prefix _ _
        · exact List.prefix_refl _
      | pbr r =>
        refine ⟨List.prefix_refl _, push_prefix _ _ _ _, fun e he => ?_⟩
        rcases one _ _ _ he with h | rfl
        · exact .inl h
        · exact .inr ⟨_, by simp, .inl rfl⟩
      | pbrs rs =>
        refine ⟨List.prefix_refl _, foldl_prefix (fun es r => push_prefix _ _ _ _) rs _, ?_⟩
        refine foldl_inv (P := fun es => ∀ e ∈ es, e ∈ b.pbrs ∨ Among [.pbrs rs] e) rs ?_ (fun r hr => .inl hr)
        intro es r hr hg e he
        rcases one _ _ _ he with h | rfl
        · exact hg e h
        · exact .inr ⟨_, by simp, .inr ⟨_, rfl, hr⟩⟩
    refine ⟨step.1.trans h1, step.2.1.trans h2, fun r hr => ?_⟩
    rcases h3 r hr with h | ⟨y, hy, h⟩
    · rcases step.2.2 r h with h | ⟨y, hy, h⟩
      · exact .inl h
      · exact .inr ⟨y, by rw [List.mem_singleton.1 hy]; simp, h⟩
    · exact .inr ⟨y, List.mem_cons_of_mem _ hy, h⟩

/-- **C130**, `Instruction.Set`: an instruction is made to apply nowhere where it did not apply before, what it
allowed and denied it allows and denies still, with rules that allow it permits at least what it permitted, and with
rules that deny at most that. -/
theorem C130_instruction (w : World) (rd : Str → Option Store) (i : Ins.Instruction) (xs : List Ins.SetArg)
    (neg : List Bool → Bool) (τ : BRule → Bool) (ρ : TRule → Prop) (q : Priv) :
    (Apply ρ (Ins.trs (Ins.set w rd i xs)) → Apply ρ (Ins.trs i)) ∧
    (∀ allow, Gives neg τ allow q (Ins.pbrs i) → Gives neg τ allow q (Ins.pbrs (Ins.set w rd i xs))) ∧
    (Gives neg τ false q (Ins.pbrs i) → ¬ Permits neg τ q (Ins.pbrs (Ins.set w rd i xs))) ∧
    ((∀ r, Among xs r → Is true r) → Permits neg τ q (Ins.pbrs i) → Permits neg τ q (Ins.pbrs (Ins.set w rd i xs))) ∧
    ((∀ r, Among xs r → Is false r) → Permits neg τ q (Ins.pbrs (Ins.set w rd i xs)) → Permits neg τ q (Ins.pbrs i)) := by
  obtain ⟨h1, h2, h3⟩ := set_grows w rd xs (i.getD Ins.newACI)
  have ht : Ins.trs i ⊆ Ins.trs (Ins.set w rd i xs) := by
    cases i with
    | none => exact List.nil_subset _
    | some b => exact h1.subset
  have e : Ins.pbrs i = (i.getD Ins.newACI).pbrs := by cases i <;> rfl
  have hp : Ins.pbrs i ⊆ Ins.pbrs (Ins.set w rd i xs) := by rw [e]; exact h2.subset
  have hm : ∀ r ∈ Ins.pbrs (Ins.set w rd i xs), r ∈ Ins.pbrs i ∨ Among xs r := by rw [e]; exact h3
  have key := one_way hp neg τ q
  refine ⟨fun h r hr => h r (ht hr), key.1, key.2.1, fun h => key.2.2.1 fun r hr => ?_,
    fun h => key.2.2.2 fun r hr => ?_⟩
  all_goals exact (hm r hr).imp id (h r)

example : (∀ r, Among [.pbr (sample false b!"dns")] r → Is false r) ∧
    Ins.pbrs (Ins.set plainWorld (fun _ => none) (some ⟨b!"x", [], [sample true b!"ip"]⟩) [.pbr (sample false b!"dns")]) =
      [sample true b!"ip", sample false b!"dns"] := by
  refine ⟨?_, sample_push⟩
  rintro r ⟨x, hx, h⟩
  rw [List.mem_singleton] at hx
  subst hx
  rcases h with h | ⟨rs, h, -⟩
  · cases h; exact sample_is false _
  · cases h

/-- Instructions allow (or deny) what one of those that apply does. -/
def AnyGives (neg : List Bool → Bool) (τ : BRule → Bool) (ρ : TRule → Prop) (allow : Bool) (q : Priv)
    (l : List Ins.Instruction) : Prop := ∃ i ∈ l, Apply ρ (Ins.trs i) ∧ Gives neg τ allow q (Ins.pbrs i)

/-- Instructions permit what they allow and do not deny. -/
def AllPermit (neg : List Bool → Bool) (τ : BRule → Bool) (ρ : TRule → Prop) (q : Priv) (l : List Ins.Instruction) :
    Prop := AnyGives neg τ ρ true q l ∧ ¬ AnyGives neg τ ρ false q l

theorem ins_push (w : World) (rd : Str → Option Ins.Instruction) (xs : List Ins.IArg) (es : List Ins.Instruction) :
    es <+: Ins.push w rd es xs ∧
    ∀ i ∈ Ins.push w rd es xs, i ∈ es ∨ ∃ x ∈ xs, x = .ins i ∨ ∃ s, x = .str s ∧ rd s = some i := by
  have one : ∀ (es : List Ins.Instruction) (j : Ins.IArg), ∀ e ∈ Ins.push1 w es j, e ∈ es ∨ j = .ins e := by
    intro es j
    refine stackPush_mem [j] (fun es x e hx ha => .inr ?_) (fun e he => .inl he)
    rw [← List.mem_singleton.1 hx]
    simp only [Ins.accept] at ha
    split at ha
    · cases ha
    · cases x with
      | ins i =>
        simp only [Ins.acceptType] at ha
        split at ha
        · cases ha; rfl
        · cases ha
      | str s => cases ha
      | other => cases ha
  constructor
  · refine foldl_prefix (fun es x => ?_) xs es
    cases x with
    | str s =>
      simp only [Ins.pushOne]
      cases rd s with
      | none => exact List.prefix_refl _
      | some j => exact stackPush_prefix _ _
    | ins j => exact stackPush_prefix _ _
    | other => exact stackPush_prefix _ _
  · refine foldl_inv (P := fun l => ∀ i ∈ l, i ∈ es ∨ ∃ x ∈ xs, x = .ins i ∨ ∃ s, x = .str s ∧ rd s = some i) xs ?_
      (fun r hr => .inl hr)
    intro l x hx hg e he
    cases x with
    | str s =>
      simp only [Ins.pushOne] at he
      cases hs : rd s with
      | none => rw [hs] at he; exact hg e he
      | some j =>
        rw [hs] at he
        rcases one _ _ _ he with h | h
        · exact hg e h
        · cases h; exact .inr ⟨_, hx, .inr ⟨s, rfl, hs⟩⟩
    | ins j =>
      rcases one _ _ _ he with h | h
      · exact hg e h
      · exact .inr ⟨_, hx, .inl h⟩
    | other =>
      rcases one _ _ _ he with h | h
      · exact hg e h
      · exact .inr ⟨_, hx, .inl h⟩

/-- **C130**, lists of instructions: pushing instructions leaves in force what the list allowed and denied; if the
new ones only allow, no permission is lost, and if they only deny, none is gained. -/
theorem C130_instructions (w : World) (rd : Str → Option Ins.Instruction) (es : List Ins.Instruction)
    (xs : List Ins.IArg) (neg : List Bool → Bool) (τ : BRule → Bool) (ρ : TRule → Prop) (q : Priv) :
    (∀ allow, AnyGives neg τ ρ allow q es → AnyGives neg τ ρ allow q (Ins.push w rd es xs)) ∧
    (AnyGives neg τ ρ false q es → ¬ AllPermit neg τ ρ q (Ins.push w rd es xs)) ∧
    ((∀ x ∈ xs, ∀ i, x = .ins i ∨ (∃ s, x = .str s ∧ rd s = some i) → ∀ r ∈ Ins.pbrs i, Is true r) →
      AllPermit neg τ ρ q es → AllPermit neg τ ρ q (Ins.push w rd es xs)) ∧
    ((∀ x ∈ xs, ∀ i, x = .ins i ∨ (∃ s, x = .str s ∧ rd s = some i) → ∀ r ∈ Ins.pbrs i, Is false r) →
      AllPermit neg τ ρ q (Ins.push w rd es xs) → AllPermit neg τ ρ q es) := by
  obtain ⟨hpre, hm⟩ := ins_push w rd xs es
  have fwd : ∀ allow, AnyGives neg τ ρ allow q es → AnyGives neg τ ρ allow q (Ins.push w rd es xs) := by
    rintro allow ⟨i, hi, h⟩
    exact ⟨i, hpre.subset hi, h⟩
  have back : ∀ a b : Bool, a ≠ b →
      (∀ x ∈ xs, ∀ i, x = .ins i ∨ (∃ s, x = .str s ∧ rd s = some i) → ∀ r ∈ Ins.pbrs i, Is a r) →
      AnyGives neg τ ρ b q (Ins.push w rd es xs) → AnyGives neg τ ρ b q es := by
    rintro a b hab ho ⟨i, hi, h, c, y, hy, h1, h2⟩
    rcases hm i hi with hi | ⟨x, hx, hxi⟩
    · exact ⟨i, hi, h, c, y, hy, h1, h2⟩
    · exact absurd ((ho x hx i hxi _ hy c (some y) rfl).symm.trans h1) hab
  refine ⟨fwd, fun h hp => hp.2 (fwd _ h), fun ho hp => ?_, fun ho hp => ?_⟩
  · exact ⟨fwd _ hp.1, fun h => hp.2 (back true false (by decide) ho h)⟩
  · exact ⟨back false true (by decide) ho hp.1, fun h => hp.2 (fwd _ h)⟩

example : AllPermit (fun _ => false) (fun _ => true) (fun _ => True) .read
      [some ⟨b!"x", [], [sample true b!"ip"]⟩] ∧
    ¬ AllPermit (fun _ => false) (fun _ => true) (fun _ => True) .read
      [some ⟨b!"x", [], [sample true b!"ip"]⟩, some ⟨b!"y", [], [sample false b!"ip"]⟩] := by
  refine ⟨⟨⟨_, List.mem_cons_self .., by simp [Apply], _, _, List.mem_cons_self .., rfl, by decide, rfl⟩, ?_⟩,
    fun h => h.2 ⟨_, List.mem_cons_of_mem _ (List.mem_cons_self ..), by simp [Apply], _, _, List.mem_cons_self .., rfl,
      by decide, rfl⟩⟩
  rintro ⟨i, hi, -, c, b, hm, h1, -⟩
  rw [List.mem_singleton.1 hi] at hm
  simp only [Ins.pbrs, sample, List.mem_singleton, Option.some.injEq, Store.mk.injEq] at hm
  rw [hm.1] at h1
  cases h1

/-! ## Permissions -/

theorem bits_up (S : Shifty 16) (q : Priv) (xs : List Rights.Arg) (hr : ∀ a ∈ xs, Rights.InRange a) (v : BitVec 16) :
    (q.InSum v.toNat → q.InSum (xs.foldl (Rights.shift1 S) v).toNat) ∧
    (q.InSum (xs.foldl (Rights.unshift1 S) v).toNat → q.InSum v.toNat) := by
  have e : ∀ u : BitVec 16, q.InSum u.toNat ↔ u.getLsbD (Rights.idx q) = true := fun u => Rights.inSum_iff _ _
  simp only [e]
  have one : ∀ u, ∀ a ∈ xs,
      (u.getLsbD (Rights.idx q) = true → (Rights.shift1 S u a).getLsbD (Rights.idx q) = true) ∧
      ((Rights.unshift1 S u a).getLsbD (Rights.idx q) = true → u.getLsbD (Rights.idx q) = true) := by
    intro u a ha
    have h := Rights.shift1_bit S u a q
      (fun i hi => ⟨(hr a ha i hi).1, by have := (hr a ha i hi).2; simpa using this⟩) (Rights.Mentions q)
      (fun _ => Iff.rfl) (fun _ => Iff.rfl) (fun _ => Iff.rfl) Iff.rfl
    exact ⟨fun hu => h.1.2 (.inr hu), fun hu => (h.2.1 hu).2⟩
  clear hr e
  induction xs generalizing v with
  | nil => exact ⟨id, id⟩
  | cons a xs ih =>
    have h1 := one v a (List.mem_cons_self ..)
    have ih' := fun u => ih u fun u a ha => one u a (List.mem_cons_of_mem _ ha)
    exact ⟨fun h => (ih' _).1 (h1.1 h), fun h => h1.2 ((ih' _).2 h)⟩

/-- **C130**, `Shift` and `Unshift`: a rule whose permission is given further rights allows, or denies, what it did
before, and one whose permission loses rights allows, or denies, nothing new. -/
theorem C130_permission (S : Shifty 16) (c : Rights.Cell) (b : Option BCtx) (xs : List Rights.Arg)
    (hr : ∀ a ∈ xs, Rights.InRange a) (neg : List Bool → Bool) (τ : BRule → Bool) (allow : Bool) (q : Priv) :
    (Gives neg τ allow q [some ⟨some c, b⟩] → Gives neg τ allow q [some ⟨Rights.shift S (some c) xs, b⟩]) ∧
    (Gives neg τ allow q [some ⟨Rights.unshift S (some c) xs, b⟩] → Gives neg τ allow q [some ⟨some c, b⟩]) := by
  obtain ⟨h1, h2⟩ := bits_up S q xs hr c.bits
  constructor
  · rintro ⟨c', b', hm, h3, h4, h5⟩
    simp only [List.mem_singleton, Option.some.injEq, Store.mk.injEq] at hm
    obtain ⟨rfl, rfl⟩ := hm
    exact ⟨_, _, List.mem_singleton.2 rfl, h3, h1 h4, h5⟩
  · rintro ⟨c', b', hm, h3, h4, h5⟩
    simp only [List.mem_singleton, Option.some.injEq, Store.mk.injEq, Rights.unshift, Option.map_some] at hm
    obtain ⟨rfl, rfl⟩ := hm
    exact ⟨_, _, List.mem_singleton.2 rfl, h3, h2 h4, h5⟩

example : Gives (fun _ => false) (fun _ => true) true .read
      [some ⟨Rights.shift (.anyRef 16) (some ⟨true, 1#16⟩) [.str b!"write"], some .zero⟩] ∧
    ∀ a ∈ [Rights.Arg.str b!"write"], Rights.InRange a := by
  have hr : ∀ a ∈ [Rights.Arg.str b!"write"], Rights.InRange a := by
    intro a ha i hi
    rw [List.mem_singleton.1 ha] at hi
    cases hi
  exact ⟨(C130_permission _ _ _ _ hr _ _ _ _).1 ⟨_, _, List.mem_cons_self .., rfl, by decide, rfl⟩, hr⟩

end Verif.OneWay
