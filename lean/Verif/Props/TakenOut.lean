import Verif.Props.RulesForce
import Verif.Props.Edit

/-!
# What taking out, putting in and replacing a rule changes (C147)

`Pop` hands out a value and takes it from its list; `remove`, `insert` and `Replace` work at a given place of a stack of
bind rules.  Here these calls are measured by what the lists allow, deny and apply to.
-/

namespace Verif.TakenOut
open Verif Verif.Spec Verif.Decide Verif.Applies Verif.OneWay

theorem split_last {α : Type} (es : List α) : es = es.dropLast ++ es.getLast?.toList := by
  rcases List.eq_nil_or_concat es with rfl | ⟨l, a, rfl⟩
  · rfl
  · simp

/-- **C147**, permission bind rules: a list allows and denies what it does after `Pop` and what the rule that `Pop`
returned does, and nothing else. -/
theorem C147_permission_bind_rules (es : List PB.PBRule) (neg : List Bool → Bool) (τ : Bind.BRule → Bool) (allow : Bool)
    (q : Priv) :
    Gives neg τ allow q es ↔ Gives neg τ allow q (PB.pop es).1 ∨ Gives neg τ allow q [(PB.pop es).2] := by
  rcases List.eq_nil_or_concat es with rfl | ⟨l, a, rfl⟩
  · simp [Gives, PB.pop]
  · simp only [Gives, PB.pop, List.concat_eq_append, List.dropLast_concat, List.getLast?_concat, Option.getD_some,
      List.mem_append]
    constructor
    · rintro ⟨c, b, h | h, hr⟩
      · exact .inl ⟨c, b, h, hr⟩
      · exact .inr ⟨c, b, h, hr⟩
    · rintro (⟨c, b, h, hr⟩ | ⟨c, b, h, hr⟩)
      · exact ⟨c, b, .inl h, hr⟩
      · exact ⟨c, b, .inr h, hr⟩

/-- **C147**, instructions. -/
theorem C147_instructions (es : List Ins.Instruction) (neg : List Bool → Bool) (τ : Bind.BRule → Bool)
    (ρ : Rules.TRule → Prop) (allow : Bool) (q : Priv) :
    AnyGives neg τ ρ allow q es ↔ AnyGives neg τ ρ allow q (Ins.pop es).1 ∨ AnyGives neg τ ρ allow q [(Ins.pop es).2] := by
  rcases List.eq_nil_or_concat es with rfl | ⟨l, a, rfl⟩
  · simp [AnyGives, Ins.pop, Gives, Ins.pbrs]
  · simp only [AnyGives, Ins.pop, List.concat_eq_append, List.dropLast_concat, List.getLast?_concat, Option.getD_some,
      List.mem_append]
    constructor
    · rintro ⟨i, h | h, hr⟩
      · exact .inl ⟨i, h, hr⟩
      · exact .inr ⟨i, h, hr⟩
    · rintro (⟨i, h, hr⟩ | ⟨i, h, hr⟩)
      · exact ⟨i, .inl h, hr⟩
      · exact ⟨i, .inr h, hr⟩

/-- **C147**, target rules: a list applies where it does after `Pop` and the rule that `Pop` returned does. -/
theorem C147_target_rules (es : List Rules.TRule) (hn : es ≠ []) (τ : Rules.TRule → Prop) :
    Apply τ es ↔ Apply τ (Rules.TRs.pop es).1 ∧ τ (Rules.TRs.pop es).2 := by
  rcases List.eq_nil_or_concat es with rfl | ⟨l, a, rfl⟩
  · exact absurd rfl hn
  · simp only [Apply, Rules.TRs.pop, List.concat_eq_append, List.dropLast_concat, List.getLast?_concat, Option.getD_some,
      List.mem_append, List.mem_singleton]
    exact ⟨fun h => ⟨fun r hr => h r (.inl hr), h a (.inr rfl)⟩, fun h r hr => hr.elim (h.1 r) fun e => e ▸ h.2⟩

/-- **C147**, bind rules: a stack of the word AND holds where it does after `Pop` and what `Pop` returned holds, one of the
word OR where it does after `Pop` or what `Pop` returned holds. -/
theorem C147_bind_rules (es : List Bind.BCtx) (p : Bool) (neg : List Bool → Bool) (τ : Bind.BRule → Bool) :
    ((Bind.BCtx.rules .and p es).eval neg τ = true ↔
      (Bind.BCtx.rules .and p (Bind.popB es).1).eval neg τ = true ∧ ∀ c, (Bind.popB es).2 = some c → c.eval neg τ = true) ∧
    ((Bind.BCtx.rules .or p es).eval neg τ = true ↔
      (Bind.BCtx.rules .or p (Bind.popB es).1).eval neg τ = true ∨ ∃ c, (Bind.popB es).2 = some c ∧ c.eval neg τ = true) := by
  have h := RulesForce.added es.dropLast es.getLast?.toList p neg τ
  rw [← split_last] at h
  simpa only [Bind.popB, Option.mem_toList] using h

/-! ## At a given place -/

/-- Whether an editable stack of the word holds; what is no bind context does not count. -/
def Holds (w : Bind.Word) (neg : List Bool → Bool) (τ : Bind.BRule → Bool) (s : Edit.Stack) : Prop :=
  (Bind.BCtx.rules w false (s.es.filterMap id)).eval neg τ = true

theorem holds_iff (neg : List Bool → Bool) (τ : Bind.BRule → Bool) (s : Edit.Stack) :
    (Holds .and neg τ s ↔ ∀ c, some c ∈ s.es → c.eval neg τ = true) ∧
    (Holds .or neg τ s ↔ ∃ c, some c ∈ s.es ∧ c.eval neg τ = true) := by
  simp only [Holds, Bind.BCtx.eval, Bind.Word.eval, (RulesForce.evals_all neg τ _).1, (RulesForce.evals_all neg τ _).2,
    List.mem_filterMap, id_eq, exists_eq_right, and_self]

/-- A stack with one more entry than another. -/
theorem one_more (neg : List Bool → Bool) (τ : Bind.BRule → Bool) (s t : Edit.Stack) (x : Edit.Item)
    (h : ∀ e, e ∈ s.es ↔ e = x ∨ e ∈ t.es) :
    (Holds .and neg τ s ↔ Holds .and neg τ t ∧ ∀ c, x = some c → c.eval neg τ = true) ∧
    (Holds .or neg τ s ↔ Holds .or neg τ t ∨ ∃ c, x = some c ∧ c.eval neg τ = true) := by
  simp only [(holds_iff neg τ _).1, (holds_iff neg τ _).2, h]
  constructor
  · exact ⟨fun k => ⟨fun c hc => k c (.inr hc), fun c hc => k c (.inl hc.symm)⟩,
      fun k c hc => hc.elim (fun e => k.2 c e.symm) (k.1 c)⟩
  · constructor
    · rintro ⟨c, hc | hc, hv⟩
      · exact .inr ⟨c, hc.symm, hv⟩
      · exact .inl ⟨c, hc, hv⟩
    · rintro (⟨c, hc, hv⟩ | ⟨c, hc, hv⟩)
      · exact ⟨c, .inr hc, hv⟩
      · exact ⟨c, .inl hc.symm, hv⟩

theorem mem_at {α : Type} (l : List α) (i : Nat) (hi : i < l.length) (e : α) : e ∈ l ↔ e = l[i] ∨ e ∈ l.eraseIdx i := by
  induction l generalizing i with
  | nil => simp at hi
  | cons a l ih =>
    cases i with
    | zero => simp
    | succ i =>
      simp only [List.length_cons, Nat.add_lt_add_iff_right] at hi
      simp only [List.mem_cons, List.getElem_cons_succ, List.eraseIdx_cons_succ, ih i hi]
      exact or_left_comm

/-- **C147**, `remove`: at a place in the stack it takes away what the entry there says, and nothing else. -/
theorem C147_remove (far : Edit.Far) (s : Edit.Stack) (hr : s.ro = false) (i : Nat) (hi : i < s.es.length)
    (neg : List Bool → Bool) (τ : Bind.BRule → Bool) :
    (Holds .and neg τ s ↔ Holds .and neg τ (s.remove far i).1 ∧ ∀ c, s.es[i] = some c → c.eval neg τ = true) ∧
    (Holds .or neg τ s ↔ Holds .or neg τ (s.remove far i).1 ∨ ∃ c, s.es[i] = some c ∧ c.eval neg τ = true) := by
  refine one_more neg τ s _ _ fun e => ?_
  have : (s.remove far i).1.es = s.es.eraseIdx i := by
    simp [Edit.Stack.remove, hr, hi]
  rw [this]
  exact mem_at s.es i hi e

/-- **C147**, `insert`: it adds what the context says, and nothing else. -/
theorem C147_insert (far : Edit.Far) (s : Edit.Stack) (hr : s.ro = false) (i : Nat) (hi : i ≤ s.es.length) (c : Bind.BCtx)
    (neg : List Bool → Bool) (τ : Bind.BRule → Bool) :
    (Holds .and neg τ (s.insert far (some c) i).1 ↔ Holds .and neg τ s ∧ c.eval neg τ = true) ∧
    (Holds .or neg τ (s.insert far (some c) i).1 ↔ Holds .or neg τ s ∨ c.eval neg τ = true) := by
  have h := one_more neg τ (s.insert far (some c) i).1 s (some c) fun e => by
    have : (s.insert far (some c) i).1.es = s.es.insertIdx i (some c) := by
      simp [Edit.Stack.insert, hr, hi]
    rw [this]
    exact List.mem_insertIdx hi
  simpa using h

/-- **C147**, `Replace`: it does what `remove` and then `insert` at this place does. -/
theorem C147_replace (far : Edit.Far) (s : Edit.Stack) (hr : s.ro = false) (i : Nat) (hi : i < s.es.length) (c : Bind.BCtx)
    (neg : List Bool → Bool) (τ : Bind.BRule → Bool) :
    (Holds .and neg τ (s.replace far (some c) i) ↔ Holds .and neg τ (s.remove far i).1 ∧ c.eval neg τ = true) ∧
    (Holds .or neg τ (s.replace far (some c) i) ↔ Holds .or neg τ (s.remove far i).1 ∨ c.eval neg τ = true) := by
  have h := one_more neg τ (s.replace far (some c) i) (s.remove far i).1 (some c) fun e => by
    have h1 : (s.replace far (some c) i).es = s.es.set i (some c) := by
      simp [Edit.Stack.replace, hr, hi]
    have h2 : (s.remove far i).1.es = s.es.eraseIdx i := by
      simp [Edit.Stack.remove, hr, hi]
    rw [h1, h2, mem_at (s.es.set i (some c)) i (by simpa using hi), List.getElem_set_self, List.eraseIdx_set_eq]
  simpa using h

/-- **C147**, `remove` for target rules: the list applies where it does afterwards and the rule at this place does. -/
theorem C147_target_remove (far : List Rules.TRule → Int → List Rules.TRule) (s : Edit.TStack) (hr : s.ro = false) (i : Nat)
    (hi : i < s.es.length) (τ : Rules.TRule → Prop) :
    Apply τ s.es ↔ Apply τ (Edit.TOp.run far s (.remove i)).es ∧ τ s.es[i] := by
  have : (Edit.TOp.run far s (.remove i)).es = s.es.eraseIdx i := by
    simp [Edit.TOp.run, hr, hi]
  rw [this]
  refine ⟨fun h => ⟨fun r hm => h r ((mem_at s.es i hi r).2 (.inr hm)), h _ (List.getElem_mem hi)⟩, fun h r hm => ?_⟩
  rcases (mem_at s.es i hi r).1 hm with rfl | hm
  · exact h.2
  · exact h.1 r hm

/-- **C147**, permissions: a list permits a right exactly if what `Pop` leaves or the rule that it returns allows it and
neither denies it. -/
theorem C147_permits (es : List PB.PBRule) (neg : List Bool → Bool) (τ : Bind.BRule → Bool) (q : Priv) :
    Permits neg τ q es ↔
      (Gives neg τ true q (PB.pop es).1 ∨ Gives neg τ true q [(PB.pop es).2]) ∧
      ¬ Gives neg τ false q (PB.pop es).1 ∧ ¬ Gives neg τ false q [(PB.pop es).2] := by
  rw [Permits, C147_permission_bind_rules es neg τ true q, C147_permission_bind_rules es neg τ false q, not_or]

/-! ## Cases that meet the hypotheses -/

/-- A rule that denies is popped; it denied what the rest allows. -/
example : Gives (fun _ => false) (fun _ => true) false .read [sample true b!"ip", sample false b!"dns"] ∧
    ¬ Gives (fun _ => false) (fun _ => true) false .read (PB.pop [sample true b!"ip", sample false b!"dns"]).1 := by
  refine ⟨⟨_, _, List.mem_cons_of_mem _ List.mem_cons_self, rfl, by decide, rfl⟩, ?_⟩
  rintro ⟨c, b, hm, h1, -⟩
  have : sample true b!"ip" = some ⟨some c, some b⟩ := (List.mem_singleton.1 hm).symm
  simp only [sample, Option.some.injEq, PB.Store.mk.injEq] at this
  rw [← this.1] at h1
  cases h1

example : [RulesForce.scopeRule, RulesForce.filterRule b!"(a=b)"] ≠ [] := by simp

/-- Two rules: the first place is in the stack. -/
def two : Edit.Stack := ⟨false, [some (.rule RulesForce.ssfRule), some (.rules .or false [])]⟩

example : two.ro = false ∧ 0 < two.es.length ∧ ¬ Holds .and (fun _ => false) (fun _ => true) two := by
  refine ⟨rfl, by decide, fun h => ?_⟩
  exact absurd ((holds_iff _ _ _).1.1 h (.rules .or false []) (by simp [two])) (by decide)

example : (⟨false, [RulesForce.scopeRule, RulesForce.filterRule b!"(a=b)"]⟩ : Edit.TStack).ro = false ∧
    1 < (⟨false, [RulesForce.scopeRule, RulesForce.filterRule b!"(a=b)"]⟩ : Edit.TStack).es.length := ⟨rfl, by decide⟩

end Verif.TakenOut
