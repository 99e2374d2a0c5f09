import Verif.Spec.History

namespace Verif.Spec

variable {α σ : Type}

theorem heldAfter_nil (m : α → Prop) (s : Prop) : HeldAfter m s [] ↔ s := by
  simp [HeldAfter]

theorem heldAfter_snoc (m : α → Prop) (s : Prop) (h : List (Op α)) (o : Op α) :
    HeldAfter m s (h ++ [o]) ↔ (m o.arg ∧ o.on = true) ∨ (¬ m o.arg ∧ HeldAfter m s h) := by
  constructor
  · rintro (⟨pre, x, post, heq, hm, hp⟩ | ⟨hs, hall⟩)
    · rcases List.eq_nil_or_concat post with rfl | ⟨post', o', rfl⟩
      · have := List.append_inj' heq rfl
        obtain ⟨rfl, h2⟩ := this
        simp at h2; subst h2
        exact Or.inl ⟨hm, rfl⟩
      · rw [List.concat_eq_append] at heq hp
        have e : pre ++ (⟨true, x⟩ : Op α) :: (post' ++ [o']) = (pre ++ ⟨true, x⟩ :: post') ++ [o'] := by simp
        rw [e] at heq
        obtain ⟨rfl, h2⟩ := List.append_inj' heq rfl
        simp at h2; subst h2
        refine Or.inr ⟨hp o (by simp), Or.inl ⟨pre, x, post', rfl, hm, ?_⟩⟩
        intro op hop; exact hp op (by simp [hop])
    · refine Or.inr ⟨hall o (by simp), Or.inr ⟨hs, fun op hop => hall op (by simp [hop])⟩⟩
  · rintro (⟨hm, ho⟩ | ⟨hm, ⟨pre, x, post, rfl, hx, hp⟩ | ⟨hs, hall⟩⟩)
    · refine Or.inl ⟨h, o.arg, [], ?_, hm, by simp⟩
      cases o; simp_all
    · refine Or.inl ⟨pre, x, post ++ [o], by simp, hx, ?_⟩
      intro op hop
      rcases List.mem_append.1 hop with h1 | h1
      · exact hp op h1
      · simp at h1; subst h1; exact hm
    · refine Or.inr ⟨hs, ?_⟩
      intro op hop
      rcases List.mem_append.1 hop with h1 | h1
      · exact hall op h1
      · simp at h1; subst h1; exact hm

/-- A fold whose step sets or clears what is mentioned, and keeps the rest, obeys
"last mention wins". -/
theorem fold_heldAfter (step : σ → Op α → σ) (bit : σ → Prop) (ok m : α → Prop)
    (hstep : ∀ s o, ok o.arg → (bit (step s o) ↔ (m o.arg ∧ o.on = true) ∨ (¬ m o.arg ∧ bit s)))
    (s : σ) (h : List (Op α)) (hok : ∀ o ∈ h, ok o.arg) :
    bit (h.foldl step s) ↔ HeldAfter m (bit s) h := by
  suffices H : ∀ r : List (Op α), (∀ o ∈ r, ok o.arg) →
      (bit (r.reverse.foldl step s) ↔ HeldAfter m (bit s) r.reverse) by
    simpa using H h.reverse (by simpa using hok)
  intro r
  induction r with
  | nil => intro _; simp [heldAfter_nil]
  | cons o r ih =>
    intro hr
    have ih := ih fun o' ho' => hr o' (by simp [ho'])
    rw [List.reverse_cons, List.foldl_append, heldAfter_snoc]
    simp only [List.foldl_cons, List.foldl_nil]
    rw [hstep _ _ (hr o (by simp)), ih]

theorem HeldAfter.congr {m m' : α → Prop} {s s' : Prop} (hm : ∀ x, m x ↔ m' x) (hs : s ↔ s')
    (h : List (Op α)) : HeldAfter m s h ↔ HeldAfter m' s' h := by
  have : m = m' := funext fun x => propext (hm x)
  subst this
  simp [HeldAfter, hs]

end Verif.Spec
