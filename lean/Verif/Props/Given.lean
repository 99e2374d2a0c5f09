import Verif.Props.Decide

/-!
# What lists and instructions hold was given to them (C127)
-/

namespace Verif.Given
open Verif Verif.Spec Verif.Bind Verif.Rules Verif.PB Verif.Decide

/-! ## Lists -/

/-- The arguments of a call on a list of permission bind rules. -/
def ruleArgs : PCall → List PArg
  | .push xs => xs
  | .pop => []

/-- The arguments of a call on a list of target rules. -/
def targetArgs : Rules.TCall → List TRArg
  | .push _ xs => xs
  | .pop => []

/-- The arguments of a call on a stack of bind rules. -/
def bindArgs : Bind.BCall → List Bind.BArg
  | .push _ xs => xs
  | .pop => []

/-- The arguments of a call on a list of instructions. -/
def insArgs : Ins.ICall → List Ins.IArg
  | .push xs => xs
  | .pop => []

theorem foldl_inv {α β : Type} {P : β → Prop} {f : β → α → β} (l : List α) (h : ∀ b a, a ∈ l → P b → P (f b a)) {b : β}
    (hb : P b) : P (l.foldl f b) := by
  induction l generalizing b with
  | nil => exact hb
  | cons a l ih => exact ih (fun b x hx => h b x (List.mem_cons_of_mem _ hx)) (h b a (List.mem_cons_self ..) hb)

theorem stackPush_mem {A E : Type} {stop : Bool} {accept : List E → A → Option E} {G : E → Prop} (xs : List A)
    (h : ∀ es x e, x ∈ xs → accept es x = some e → G e) {es : List E} (hg : ∀ e ∈ es, G e) :
    ∀ e ∈ stackPush stop accept es xs, G e := by
  induction xs generalizing es with
  | nil => exact hg
  | cons x xs ih =>
    have ih' := fun es hg => ih (fun es y e hy => h es y e (List.mem_cons_of_mem _ hy)) (es := es) hg
    rw [stackPush]
    cases ha : accept es x with
    | some e =>
      refine ih' _ fun e' he => ?_
      rcases List.mem_append.1 he with he | he
      · exact hg e' he
      · rw [List.mem_singleton.1 he]; exact h es x e (List.mem_cons_self ..) ha
    | none =>
      cases stop
      · exact ih' _ hg
      · exact hg

theorem push_mem {w : World} {rd : Str → Option Store} {G : PBRule → Prop} (xs : List PArg)
    (h : ∀ x ∈ xs, ∀ r, Offers rd x r → G r) {es : List PBRule} (hg : ∀ e ∈ es, G e) :
    ∀ e ∈ PB.push w rd es xs, G e := by
  have one : ∀ (es : List PBRule) (r : PBRule), (Complete r → G r) → (∀ e ∈ es, G e) →
      ∀ e ∈ push1 w rd es (.rule r), G e := by
    intro es r hr hg
    refine stackPush_mem _ (fun es x e hx ha => ?_) hg
    obtain ⟨h1, h2, -⟩ := accept_sound ha
    rw [List.mem_singleton] at hx
    rw [hx] at h1
    cases h1
    exact hr h2
  have none : ∀ (es : List PBRule) (x : PArg), (∀ r, x ≠ .rule r) → push1 w rd es x = es :=
    fun es x hx => push1_bad w rd es x fun r e => absurd e (hx r)
  induction xs generalizing es with
  | nil => exact hg
  | cons x xs ih =>
    have ih' := fun es hg => ih (fun y hy => h y (List.mem_cons_of_mem _ hy)) (es := es) hg
    have hx := h x (List.mem_cons_self ..)
    cases x with
    | str s =>
      rw [push]
      cases hs : rd s with
      | none => exact hg
      | some st => exact ih' _ (one _ _ (fun hc => hx _ ⟨hc, .inr ⟨s, st, rfl, hs, rfl⟩⟩) hg)
    | rule r => exact ih' _ (one _ _ (fun hc => hx _ ⟨hc, .inl rfl⟩) hg)
    | nil => rw [push, none _ _ (by simp)]; exact ih' _ hg; all_goals simp
    | other => rw [push, none _ _ (by simp)]; exact ih' _ hg; all_goals simp

/-- **C127.** Whatever is done to a list of permission bind rules, each rule in it was given to it, itself or as a
text. -/
theorem C127_rules (w : World) (rd : Str → Option Store) (stop : Bool) (xs : List PArg) (h : List PCall) (r : PBRule)
    (hr : r ∈ h.foldl (PCall.run w rd) (PBRs w rd stop xs)) : ∃ x ∈ xs ++ h.flatMap ruleArgs, Offers rd x r := by
  refine foldl_inv (P := fun es => ∀ r ∈ es, ∃ x ∈ xs ++ h.flatMap ruleArgs, Offers rd x r) h ?_ ?_ r hr
  · intro es c hc hg
    cases c with
    | push ys =>
      refine push_mem ys (fun x hx r ho => ⟨x, ?_, ho⟩) hg
      exact List.mem_append_right _ (List.mem_flatMap.2 ⟨_, hc, hx⟩)
    | pop => exact fun r hr => hg r (List.dropLast_subset es hr)
  · refine stackPush_mem _ (fun es x e hx ha => ?_) (by simp)
    obtain ⟨h1, h2, -⟩ := accept_sound ha
    exact ⟨x, List.mem_append_left _ hx, h2, .inl h1⟩

/-- **C127.** So the list allows and denies only what one of the rules given to it does. -/
theorem C127_gives (w : World) (rd : Str → Option Store) (stop : Bool) (xs : List PArg) (h : List PCall)
    (neg : List Bool → Bool) (τ : BRule → Bool) (allow : Bool) (q : Priv)
    (hg : Gives neg τ allow q (h.foldl (PCall.run w rd) (PBRs w rd stop xs))) :
    ∃ x ∈ xs ++ h.flatMap ruleArgs, ∃ r, Offers rd x r ∧ Gives neg τ allow q [r] := by
  obtain ⟨c, b, hm, h1⟩ := hg
  obtain ⟨x, hx, ho⟩ := C127_rules w rd stop xs h _ hm
  exact ⟨x, hx, _, ho, c, b, by simp, h1⟩

example : Gives (fun _ => false) (fun _ => true) true .read
    ([PCall.push [.rule (sampleRule b!"ip"), .rule (sampleRule b!"dns")], .pop].foldl (PCall.run plainWorld fun _ => none)
      (PBRs plainWorld (fun _ => none) true [.rule (sampleRule b!"ssf")])) :=
  ⟨_, _, List.mem_cons_self .., rfl, by decide +kernel, rfl⟩

/-- **C127**, lists of target rules. -/
theorem C127_targets (stop : Bool) (xs : List TRArg) (h : List Rules.TCall) (r : TRule)
    (hr : r ∈ h.foldl Rules.TCall.run (TRs.push stop [] xs)) : .rule r ∈ xs ++ h.flatMap targetArgs := by
  have key : ∀ es x e, acceptTR es x = some e → x = .rule e := by
    intro es x e ha
    cases x with
    | other => cases ha
    | rule r =>
      simp only [acceptTR] at ha
      repeat' split at ha
      all_goals first | (cases ha; done) | (cases ha; rfl)
  refine foldl_inv (P := fun es => ∀ r ∈ es, .rule r ∈ xs ++ h.flatMap targetArgs) h ?_ ?_ r hr
  · intro es c hc hg
    cases c with
    | push stop ys =>
      refine stackPush_mem ys (fun es x e hx ha => ?_) hg
      rw [← key es x e ha]
      exact List.mem_append_right _ (List.mem_flatMap.2 ⟨_, hc, hx⟩)
    | pop => exact fun r hr => hg r (List.dropLast_subset es hr)
  · refine stackPush_mem _ (fun es x e hx ha => ?_) (by simp)
    rw [← key es x e ha]
    exact List.mem_append_left _ hx

example : TR (.target Target) (.cop Eq') (.text b!"a") ∈
    [Rules.TCall.push true [.rule (TR (.target TargetFilter) (.cop Eq') (.text b!"b"))], .pop].foldl Rules.TCall.run
      (TRs.push true [] [.rule (TR (.target Target) (.cop Eq') (.text b!"a"))]) :=
  List.mem_cons_self ..

/-- **C127**, stacks of bind rules. -/
theorem C127_bind_rules (stop : Bool) (xs : List Bind.BArg) (h : List Bind.BCall) (c : BCtx)
    (hr : c ∈ h.foldl Bind.BCall.run (pushB stop [] xs)) : .ctx c ∈ xs ++ h.flatMap bindArgs := by
  have key : ∀ x e, acceptB x = some e → x = .ctx e := by
    intro x e ha
    cases x with
    | other => cases ha
    | ctx c =>
      cases c with
      | zero => cases ha
      | rules w p es => cases ha; rfl
      | rule r =>
        simp only [acceptB] at ha
        split at ha
        · cases ha; rfl
        · cases ha
  refine foldl_inv (P := fun es => ∀ r ∈ es, .ctx r ∈ xs ++ h.flatMap bindArgs) h ?_ ?_ c hr
  · intro es c hc hg
    cases c with
    | push stop ys =>
      refine stackPush_mem ys (fun es x e hx ha => ?_) hg
      rw [← key x e ha]
      exact List.mem_append_right _ (List.mem_flatMap.2 ⟨_, hc, hx⟩)
    | pop => exact fun r hr => hg r (List.dropLast_subset es hr)
  · refine stackPush_mem _ (fun es x e hx ha => ?_) (by simp)
    rw [← key x e ha]
    exact List.mem_append_left _ hx

example : BCtx.rule (BR (.bind BindSSF) (.cop Eq') (.text b!"1")) ∈
    [Bind.BCall.push true [.ctx .zero, .ctx (.rule (BR (.bind BindIP) (.cop Eq') (.text b!"1")))]].foldl Bind.BCall.run
      (pushB true [] [.ctx (.rule (BR (.bind BindSSF) (.cop Eq') (.text b!"1")))]) :=
  List.mem_cons_self ..

/-- **C127**, lists of instructions: each was given itself, or as a text that the reader makes it of. -/
theorem C127_instructions (w : World) (rd : Str → Option Ins.Instruction) (h : List Ins.ICall) (i : Ins.Instruction)
    (hi : i ∈ h.foldl (Ins.ICall.run w rd) []) :
    ∃ x ∈ h.flatMap insArgs, x = .ins i ∨ ∃ s, x = .str s ∧ rd s = some i := by
  have key : ∀ es x e, Ins.accept w es x = some e → x = .ins e := by
    intro es x e ha
    simp only [Ins.accept] at ha
    split at ha
    · cases ha
    · cases x with
      | ins i =>
        simp only [Ins.acceptType] at ha
        split at ha
        · cases ha; rfl
        · cases ha
      | str s => cases ha
      | other => cases ha
  refine foldl_inv (P := fun es => ∀ i ∈ es, ∃ x ∈ h.flatMap insArgs, x = .ins i ∨ ∃ s, x = .str s ∧ rd s = some i) h
    ?_ (by simp) i hi
  intro es c hc hg
  cases c with
  | pop => exact fun r hr => hg r (List.dropLast_subset es hr)
  | push ys =>
    refine foldl_inv (P := fun es => ∀ i ∈ es, ∃ x ∈ h.flatMap insArgs, x = .ins i ∨ ∃ s, x = .str s ∧ rd s = some i) ys
      ?_ hg
    intro es y hy hg
    have hy' : y ∈ h.flatMap insArgs := List.mem_flatMap.2 ⟨_, hc, hy⟩
    have one : ∀ z, (∀ e, z = .ins e → y = .ins e ∨ ∃ s, y = .str s ∧ rd s = some e) →
        ∀ i ∈ Ins.push1 w es z, ∃ x ∈ h.flatMap insArgs, x = .ins i ∨ ∃ s, x = .str s ∧ rd s = some i := by
      intro z hz
      refine stackPush_mem _ (fun es x e hx ha => ⟨y, hy', hz e ?_⟩) hg
      rw [← List.mem_singleton.1 hx]
      exact key es x e ha
    cases y with
    | str s =>
      simp only [Ins.pushOne]
      cases hs : rd s with
      | none => exact hg
      | some j => exact one _ fun e he => .inr ⟨s, rfl, by cases he; exact hs⟩
    | ins j => exact one _ fun e he => .inl he
    | other => exact one _ fun e he => .inl he

example : some ⟨b!"x", [], [sampleRule b!"ssf"]⟩ ∈
    [Ins.ICall.push [.str b!"x", .other]].foldl
      (Ins.ICall.run plainWorld fun s => some (some ⟨s, [], [sampleRule b!"ssf"]⟩)) [] :=
  List.mem_cons_self ..

/-! ## Instructions -/

/-- **C127**, instructions: the label was given, and so was each target rule and each permission bind rule, alone or
in a list; so the instruction allows and denies only what one of the rules given to it does. -/
theorem C127_instruction (w : World) (rd : Str → Option Store) (i : Ins.Instruction) (xs : List Ins.SetArg)
    (h : Ins.Made w rd i xs) :
    (Ins.acl i ≠ [] → .str (Ins.acl i) ∈ xs) ∧
    (∀ r ∈ Ins.trs i, ∃ x ∈ xs, x = .tr r ∨ ∃ rs, x = .trs rs ∧ r ∈ rs) ∧
    (∀ r ∈ Ins.pbrs i, Complete r ∧ ∃ x ∈ xs, x = .pbr r ∨ ∃ rs, x = .pbrs rs ∧ r ∈ rs) ∧
    ∀ neg τ allow q, Gives neg τ allow q (Ins.pbrs i) →
      ∃ r, (∃ x ∈ xs, x = .pbr r ∨ ∃ rs, x = .pbrs rs ∧ r ∈ rs) ∧ Gives neg τ allow q [r] := by
  have keyT : ∀ (es : List TRule) (r : TRule), ∀ e ∈ TRs.push true es [.rule r], e ∈ es ∨ e = r := by
    intro es r
    refine stackPush_mem _ (fun es x e hx ha => .inr ?_) (fun e he => .inl he)
    rw [List.mem_singleton.1 hx] at ha
    simp only [acceptTR] at ha
    repeat' split at ha
    all_goals first | (cases ha; done) | (cases ha; rfl)
  rw [Ins.made_eq h]
  have inv : ∀ b : Ins.Body, (b.acl ≠ [] → .str b.acl ∈ xs) →
      (∀ r ∈ b.trs, ∃ x ∈ xs, x = .tr r ∨ ∃ rs, x = .trs rs ∧ r ∈ rs) →
      (∀ r ∈ b.pbrs, Complete r ∧ ∃ x ∈ xs, x = .pbr r ∨ ∃ rs, x = .pbrs rs ∧ r ∈ rs) →
      ∀ x ∈ xs, ((Ins.assert1 w rd b x).acl ≠ [] → .str (Ins.assert1 w rd b x).acl ∈ xs) ∧
      (∀ r ∈ (Ins.assert1 w rd b x).trs, ∃ x ∈ xs, x = .tr r ∨ ∃ rs, x = .trs rs ∧ r ∈ rs) ∧
      (∀ r ∈ (Ins.assert1 w rd b x).pbrs, Complete r ∧ ∃ x ∈ xs, x = .pbr r ∨ ∃ rs, x = .pbrs rs ∧ r ∈ rs) := by
    intro b h1 h2 h3 x hx
    cases x with
    | other => exact ⟨h1, h2, h3⟩
    | str s =>
      simp only [Ins.assert1, Ins.setLabel]
      split
      · exact ⟨fun _ => hx, h2, h3⟩
      · exact ⟨h1, h2, h3⟩
    | tr t =>
      refine ⟨h1, fun r hr => ?_, h3⟩
      rcases keyT _ _ r hr with hr | rfl
      · exact h2 r hr
      · exact ⟨_, hx, .inl rfl⟩
    | trs ts =>
      refine ⟨h1, ?_, h3⟩
      refine foldl_inv (P := fun es => ∀ r ∈ es, ∃ x ∈ xs, x = .tr r ∨ ∃ rs, x = .trs rs ∧ r ∈ rs) ts ?_ h2
      intro es t ht hg r hr
      simp only [Ins.pushTarget] at hr
      split at hr
      · rcases keyT _ _ r hr with hr | rfl
        · exact hg r hr
        · exact ⟨_, hx, .inr ⟨ts, rfl, ht⟩⟩
      · exact hg r hr
    | pbr p =>
      refine ⟨h1, h2, push_mem _ (fun y hy r ho => ?_) h3⟩
      rw [List.mem_singleton] at hy
      subst hy
      obtain ⟨hc, e | ⟨s, st, e, -⟩⟩ := ho
      · cases e; exact ⟨hc, _, hx, .inl rfl⟩
      · cases e
    | pbrs ps =>
      refine ⟨h1, h2, ?_⟩
      refine foldl_inv (P := fun es => ∀ r ∈ es, Complete r ∧ ∃ x ∈ xs, x = .pbr r ∨ ∃ rs, x = .pbrs rs ∧ r ∈ rs) ps ?_ h3
      intro es p hp hg
      refine push_mem _ (fun y hy r ho => ?_) hg
      rw [List.mem_singleton] at hy
      subst hy
      obtain ⟨hc, e | ⟨s, st, e, -⟩⟩ := ho
      · cases e; exact ⟨hc, _, hx, .inr ⟨ps, rfl, hp⟩⟩
      · cases e
  have all := foldl_inv (f := Ins.assert1 w rd) (P := fun b : Ins.Body => (b.acl ≠ [] → .str b.acl ∈ xs) ∧
      (∀ r ∈ b.trs, ∃ x ∈ xs, x = .tr r ∨ ∃ rs, x = .trs rs ∧ r ∈ rs) ∧
      (∀ r ∈ b.pbrs, Complete r ∧ ∃ x ∈ xs, x = .pbr r ∨ ∃ rs, x = .pbrs rs ∧ r ∈ rs)) xs
    (fun b x hx hb => inv b hb.1 hb.2.1 hb.2.2 x hx) (b := Ins.newACI) ⟨by simp [Ins.newACI], by simp [Ins.newACI], by simp [Ins.newACI]⟩
  obtain ⟨h1, h2, h3⟩ := all
  refine ⟨h1, h2, h3, ?_⟩
  rintro neg τ allow q ⟨c, b, hm, h4⟩
  exact ⟨_, (h3 _ hm).2, c, b, by simp, h4⟩

example : Ins.Made plainWorld (fun _ => none) (some ⟨b!"x", [], [sampleRule b!"ssf", sampleRule b!"ip"]⟩)
    [.pbrs [sampleRule b!"ssf", none], .str b!"x", .pbr (sampleRule b!"ip"), .other] :=
  .aci [.pbrs [sampleRule b!"ssf", none]] [[.str b!"x", .pbr (sampleRule b!"ip")], [.other]]

end Verif.Given
