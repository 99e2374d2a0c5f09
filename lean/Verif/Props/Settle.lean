import Verif.Lemmas.Filter
import Verif.Lemmas.Inside
import Verif.Model.Target
import Verif.Props.Filter
import Verif.Props.Misc

/-!
# Reading what was printed, again and again (C142)
-/

namespace Verif.Settle
open Verif Verif.Misc

/-! ## The claim -/

/-- `Rounds round n t u`: `n` rounds make `u` of `t`. -/
inductive Rounds (round : Str → Option Str) : Nat → Str → Str → Prop
  | none (t : Str) : Rounds round 0 t t
  | more {n : Nat} {t u v : Str} : round t = some u → Rounds round n u v → Rounds round (n + 1) t v

/-- Within `m` rounds a text is reached that is printed as it is read, or that is refused. -/
def SettlesWithin (round : Str → Option Str) (m : Nat) (t : Str) : Prop :=
  ∃ n u, n ≤ m ∧ Rounds round n t u ∧ (round u = some u ∨ round u = none)

/-- One round for attribute filters: the text is read, and the filter is printed. -/
def filterRound (t : Str) : Option Str :=
  match Filter.AttributeFilter.parse t with
  | .ok f => some (Filter.AttributeFilter.string f)
  | .error _ => none

/-- One round for the values of `targetfilter` rules. -/
def targetRound (t : Str) : Option Str :=
  match Rules.assertTargetFilter [t] with
  | .ok f => some (Filter.SearchFilter.string f)
  | .error _ => none

/-- The claim: every text settles. -/
def Settles : Prop := ∀ t, (∃ m, SettlesWithin filterRound m t) ∧ ∃ m, SettlesWithin targetRound m t

/-! ## Text above ASCII does not settle -/

/-- The bytes the letter é turns into. -/
def Grown (c : Byte) : Prop := c = 0xC2 ∨ c = 0xC3 ∨ c = 0x82 ∨ c = 0x83 ∨ c = 0xA9

theorem grown_encode {c : Byte} (h : Grown c) : ¬ (c = 9 ∨ c = 10 ∨ c = 32) ∧ c ≠ 10 ∧ (encodeByte c).length = 2 ∧
    ∀ d ∈ encodeByte c, Grown d := by
  rcases h with rfl | rfl | rfl | rfl | rfl <;> refine ⟨by decide, by decide, by decide, ?_⟩ <;>
    · intro d hd
      have hl : ∀ c : Byte, d ∈ encodeByte c → encodeByte c = [(0xC2 : Byte), 0x82] ∨ encodeByte c = [(0xC2 : Byte), 0x83] ∨
          encodeByte c = [(0xC2 : Byte), 0xA9] ∨ encodeByte c = [(0xC3 : Byte), 0x82] ∨ encodeByte c = [(0xC3 : Byte), 0x83] → Grown d := by
        intro c h e
        rcases e with e | e | e | e | e <;> rw [e] at h <;> simp only [List.mem_cons, List.not_mem_nil, or_false] at h <;>
          rcases h with rfl | rfl <;> simp [Grown]
      exact hl _ hd (by decide)

theorem grown_loop (u : Str) (h : ∀ c ∈ u, Grown c) (z : Str) : ∃ w, condenseLoop false (u ++ z) = w ++ condenseLoop false z ∧
    (∀ c ∈ w, Grown c) ∧ w.length = 2 * u.length := by
  induction u with
  | nil => exact ⟨[], rfl, by simp, rfl⟩
  | cons c u ih =>
    obtain ⟨w, h1, h2, h3⟩ := ih fun c hc => h c (List.mem_cons_of_mem _ hc)
    obtain ⟨g1, -, g3, g4⟩ := grown_encode (h c List.mem_cons_self)
    refine ⟨encodeByte c ++ w, ?_, ?_, ?_⟩
    · simp only [List.cons_append, condenseLoop, if_neg g1, h1, List.append_assoc]
    · intro d hd
      rcases List.mem_append.1 hd with hd | hd
      · exact g4 d hd
      · exact h2 d hd
    · simp only [List.length_append, List.length_cons]; omega

/-- What reading makes of a text that grows. -/
theorem grown_inside (p : Str) (hp : p = b!"(cn=" ∨ p = b!"cn:(cn=") (u : Str) (h : ∀ c ∈ u, Grown c) : ∃ w,
    unquote (condenseWHSP (p ++ u ++ b!")")) = p ++ w ++ b!")" ∧ (∀ c ∈ w, Grown c) ∧ w.length = 2 * u.length := by
  obtain ⟨w, h1, h2, h3⟩ := grown_loop u h b!")"
  refine ⟨w, ?_, h2, h3⟩
  have ends : ∀ v : Str, ∀ hne : p ++ v ++ b!")" ≠ [], Solid ((p ++ v ++ b!")").head hne) ∧ Solid ((p ++ v ++ b!")").getLast hne) := by
    intro v hne
    refine ⟨?_, ?_⟩
    · rcases hp with rfl | rfl <;> simp [Solid] <;> decide
    · simp only [List.getLast_append, List.getLast_singleton]; simp [Solid]; decide
  have hm : (p ++ u ++ b!")").map (fun c => if c = 10 then (32 : Byte) else c) = p ++ u ++ b!")" := by
    have hu : u.map (fun c => if c = 10 then (32 : Byte) else c) = u := by
      conv => rhs; rw [← List.map_id u]
      exact List.map_congr_left fun c hc => by rw [if_neg (grown_encode (h c hc)).2.1]; rfl
    rw [List.map_append, List.map_append, hu]
    rcases hp with rfl | rfl <;> rfl
  have hl : condenseLoop false (p ++ u ++ b!")") = p ++ w ++ b!")" := by
    have : condenseLoop false (p ++ u ++ b!")") = p ++ condenseLoop false (u ++ b!")") := by
      rcases hp with rfl | rfl <;> rfl
    rw [this, h1, List.append_assoc]
    rfl
  have hc : condenseWHSP (p ++ u ++ b!")") = p ++ w ++ b!")" := by
    rw [condenseWHSP, trim_id (ends u), hm, hl, trim_id (ends w)]
  rw [hc]
  rcases hp with rfl | rfl
  · exact C55_plain 40 41 (b!"cn=" ++ w) (by decide) (by decide)
  · exact C55_plain 99 41 (b!"n:(cn=" ++ w) (by decide) (by decide)

theorem filter_step (u : Str) (h : ∀ c ∈ u, Grown c) : ∃ w, filterRound (b!"cn:(cn=" ++ u ++ b!")") = some (b!"cn:(cn=" ++ w ++ b!")") ∧
    (∀ c ∈ w, Grown c) ∧ w.length = 2 * u.length := by
  obtain ⟨w, h1, h2, h3⟩ := grown_inside _ (.inr rfl) u h
  refine ⟨w, ?_, h2, h3⟩
  unfold filterRound Filter.AttributeFilter.parse
  simp only [h1]
  rw [if_neg (by simp)]
  rfl

theorem target_step (u : Str) (h : ∀ c ∈ u, Grown c) : ∃ w, targetRound (b!"(cn=" ++ u ++ b!")") = some (b!"(cn=" ++ w ++ b!")") ∧
    (∀ c ∈ w, Grown c) ∧ w.length = 2 * u.length := by
  obtain ⟨w, h1, h2, h3⟩ := grown_inside _ (.inl rfl) u h
  refine ⟨w, ?_, h2, h3⟩
  unfold targetRound Rules.assertTargetFilter
  simp only [h1]
  rw [if_neg (by simp)]
  rfl

theorem rounds_grow {round : Str → Option Str} {p : Str} (step : ∀ u : Str, (∀ c ∈ u, Grown c) →
    ∃ w, round (p ++ u ++ b!")") = some (p ++ w ++ b!")") ∧ (∀ c ∈ w, Grown c) ∧ w.length = 2 * u.length) (n : Nat) :
    ∀ u : Str, (∀ c ∈ u, Grown c) → ∃ w, Rounds round n (p ++ u ++ b!")") (p ++ w ++ b!")") ∧ (∀ c ∈ w, Grown c) ∧
      w.length = 2 ^ n * u.length := by
  induction n with
  | zero => intro u h; exact ⟨u, .none _, h, by simp⟩
  | succ n ih =>
    intro u h
    obtain ⟨w, h1, h2, h3⟩ := step u h
    obtain ⟨v, k1, k2, k3⟩ := ih w h2
    exact ⟨v, .more h1 k1, k2, by rw [k3, h3, Nat.pow_succ]; simp [Nat.mul_assoc]⟩

theorem rounds_unique {round : Str → Option Str} {n : Nat} {t u v : Str} (h : Rounds round n t u) (k : Rounds round n t v) : u = v := by
  induction h with
  | none t => cases k; rfl
  | more e _ ih =>
    cases k with
    | more e' k => rw [e] at e'; cases e'; exact ih k

/-- The filter with the letter é. -/
def accented : Str := b!"(cn=" ++ [0xC3, 0xA9] ++ b!")"

/-- **C142** fails in the worst way: the letter é doubles in every round, for ever. -/
theorem C142_doubles (n : Nat) :
    (∀ t, Rounds filterRound n (b!"cn:" ++ accented) t → t.length = 8 + 2 ^ (n + 1)) ∧
    (∀ t, Rounds targetRound n accented t → t.length = 5 + 2 ^ (n + 1)) ∧
    (∃ t, Rounds filterRound n (b!"cn:" ++ accented) t) ∧ ∃ t, Rounds targetRound n accented t := by
  have g : ∀ c ∈ [(0xC3 : Byte), 0xA9], Grown c := by simp [Grown]
  obtain ⟨w, h1, -, h3⟩ := rounds_grow filter_step n [0xC3, 0xA9] g
  obtain ⟨v, k1, -, k3⟩ := rounds_grow target_step n [0xC3, 0xA9] g
  refine ⟨fun t ht => ?_, fun t ht => ?_, ⟨_, h1⟩, ⟨_, k1⟩⟩
  · rw [← rounds_unique h1 ht]
    simp only [List.length_append, List.length_cons, List.length_nil, Nat.pow_succ] at h3 ⊢
    omega
  · rw [← rounds_unique k1 ht]
    simp only [List.length_append, List.length_cons, List.length_nil, Nat.pow_succ] at k3 ⊢
    omega

theorem rounds_snoc {round : Str → Option Str} {n : Nat} {t u v : Str} (h : Rounds round n t u) (e : round u = some v) :
    Rounds round (n + 1) t v := by
  induction h with
  | none t => exact .more e (.none _)
  | more e' _ ih => exact .more e' (ih e)

/-- **C142** fails. -/
theorem C142_counterexample : ¬ Settles := by
  intro h
  obtain ⟨-, m, n, u, -, hr, he⟩ := h accented
  have h1 := (C142_doubles n).2.1 u hr
  obtain ⟨v, hv⟩ := (C142_doubles (n + 1)).2.2.2
  have hv' := (C142_doubles (n + 1)).2.1 v hv
  have : ∃ u', Rounds targetRound n accented u' ∧ targetRound u' = some v := by
    clear h1 hv' he hr u h m
    generalize accented = t at hv ⊢
    induction n generalizing t with
    | zero => cases hv with
      | more e k => cases k; exact ⟨t, .none _, e⟩
    | succ n ih =>
      cases hv with
      | more e k =>
        obtain ⟨u', k1, k2⟩ := ih _ k
        exact ⟨u', .more e k1, k2⟩
  obtain ⟨u', k1, k2⟩ := this
  have := rounds_unique hr k1
  subst this
  rw [k2] at he
  rcases he with he | he
  · cases he
    rw [h1, Nat.pow_succ] at hv'
    have := Nat.pow_pos (n := n + 1) (show 0 < 2 by omega)
    omega
  · cases he

/-! ## ASCII text settles -/

theorem unquote_infix (s : Str) : ∃ p q, s = p ++ unquote s ++ q := by
  obtain ⟨p, q, h, -⟩ := C55_at_most_one s
  exact ⟨p, q, h⟩

/-- Reading a text that is condensed takes bytes from its ends only. -/
theorem inside_infix {s : Str} (ha : Str.IsAscii s) (ht : Tight false s) : ∃ p q, s = p ++ unquote (condenseWHSP s) ++ q := by
  obtain ⟨l, r, -, -, e⟩ := trimSpace_split s
  obtain ⟨l', r', -, -, e'⟩ := trimSpace_split (Str.trimSpace s)
  have t1 : Tight false (Str.trimSpace s) := by rw [e] at ht; exact tight_append_right (tight_append_left ht)
  have hc : condenseWHSP s = Str.trimSpace (Str.trimSpace s) := by
    rw [condenseWHSP, nl_id t1, condenseLoop_id (trim_ascii ha) t1]
  obtain ⟨p, q, e2⟩ := unquote_infix (condenseWHSP s)
  refine ⟨l ++ l' ++ p, q ++ r' ++ r, ?_⟩
  rw [hc] at e2 ⊢
  conv => lhs; rw [e, e', e2]
  simp

theorem inside_nice {s : Str} (ha : Str.IsAscii s) : Str.IsAscii (unquote (condenseWHSP s)) ∧
    Tight false (unquote (condenseWHSP s)) ∧ (unquote (condenseWHSP s)).length ≤ s.length := by
  obtain ⟨p, q, e⟩ := unquote_infix (condenseWHSP s)
  have h1 : Str.IsAscii (condenseWHSP s) := trim_ascii (condenseLoop_ascii (nl_ascii (trim_ascii ha)) false)
  have h2 := condense_tight s
  rw [e] at h1 h2
  refine ⟨fun c hc => h1 c (by simp [hc]), tight_append_right (tight_append_left h2), ?_⟩
  have l1 : (unquote (condenseWHSP s)).length ≤ (condenseWHSP s).length := by
    have := congrArg List.length e
    simp only [List.length_append] at this
    omega
  have l2 : (condenseWHSP s).length ≤ s.length := by
    have loop : ∀ (t : Str), Str.IsAscii t → ∀ b, (condenseLoop b t).length ≤ t.length := by
      intro t
      induction t with
      | nil => intro _ b; simp [condenseLoop]
      | cons c t ih =>
        intro ht b
        have hc : c < 128 := ht c (by simp)
        have ih := ih fun d hd => ht d (by simp [hd])
        simp only [condenseLoop]
        split
        · split
          · have := ih true; simp only [List.length_cons]; omega
          · have := ih true; simp only [List.length_cons]; omega
        · have := ih false
          simp only [encodeByte, if_pos hc, List.length_append, List.length_cons, List.length_nil]; omega
    have trim : ∀ t : Str, (Str.trimSpace t).length ≤ t.length := by
      intro t
      obtain ⟨l, r, -, -, e⟩ := trimSpace_split t
      have := congrArg List.length e
      simp only [List.length_append] at this
      omega
    unfold condenseWHSP
    refine Nat.le_trans (trim _) (Nat.le_trans (loop _ (nl_ascii (trim_ascii ha)) false) ?_)
    rw [List.length_map]
    exact trim s
  omega

theorem settle {round : Str → Option Str} (hr : ∀ t u, round t = some u → u = unquote (condenseWHSP t) ∨ t ≠ [] ∧ u = [] )
    (h0 : round [] = none) (n : Nat) : ∀ s : Str, s.length ≤ n → Str.IsAscii s → Tight false s → SettlesWithin round n s := by
  induction n with
  | zero =>
    intro s hs _ _
    have : s = [] := List.length_eq_zero_iff.1 (by omega)
    subst this
    exact ⟨0, [], Nat.le_refl _, .none _, .inr h0⟩
  | succ n ih =>
    intro s hs ha ht
    cases e : round s with
    | none => exact ⟨0, s, Nat.zero_le _, .none _, .inr e⟩
    | some u =>
      rcases hr s u e with rfl | ⟨-, rfl⟩
      · obtain ⟨p, q, hi⟩ := inside_infix ha ht
        by_cases hpq : p = [] ∧ q = []
        · obtain ⟨rfl, rfl⟩ := hpq
          simp only [List.nil_append, List.append_nil] at hi
          exact ⟨0, s, Nat.zero_le _, .none _, .inl (by rw [e, ← hi])⟩
        · have hl : (unquote (condenseWHSP s)).length ≤ n := by
            have := congrArg List.length hi
            simp only [List.length_append] at this
            have : p.length ≠ 0 ∨ q.length ≠ 0 := by
              rcases Classical.em (p = []) with hp | hp
              · exact .inr fun h => hpq ⟨hp, List.length_eq_zero_iff.1 h⟩
              · exact .inl fun h => hp (List.length_eq_zero_iff.1 h)
            omega
          obtain ⟨m, v, hm, h1, h2⟩ := ih _ hl (inside_nice ha).1 (inside_nice ha).2.1
          exact ⟨m + 1, v, by omega, .more e h1, h2⟩
      · exact ⟨1, [], by omega, .more e (.none _), .inr h0⟩

theorem settle_ascii {round : Str → Option Str} (hr : ∀ t u, round t = some u → u = unquote (condenseWHSP t) ∨ t ≠ [] ∧ u = [] )
    (h0 : round [] = none) (s : Str) (ha : Str.IsAscii s) : SettlesWithin round (s.length + 1) s := by
  cases e : round s with
  | none => exact ⟨0, s, Nat.zero_le _, .none _, .inr e⟩
  | some u =>
    rcases hr s u e with rfl | ⟨-, rfl⟩
    · obtain ⟨h1, h2, h3⟩ := inside_nice ha
      obtain ⟨m, v, hm, k1, k2⟩ := settle hr h0 _ _ (Nat.le_refl _) h1 h2
      exact ⟨m + 1, v, by omega, .more e k1, k2⟩
    · exact ⟨1, [], by omega, .more e (.none _), .inr h0⟩

theorem filter_round {t u : Str} (h : filterRound t = some u) : u = unquote (condenseWHSP t) ∨ t ≠ [] ∧ u = [] := by
  have hne : t ≠ [] := by rintro rfl; cases h
  unfold filterRound Filter.AttributeFilter.parse at h
  simp only at h
  split at h
  · rename_i f hf
    cases h
    split at hf
    · cases hf
    · unfold Filter.parseAttributeFilter at hf
      cases e : Str.cut1 58 (unquote (condenseWHSP t)) with
      | none => rw [e] at hf; cases hf
      | some pq =>
        obtain ⟨p, q⟩ := pq
        rw [e] at hf
        obtain ⟨e1, -⟩ := Str.cut1_some e
        simp only at hf
        split at hf
        · cases hf
        · rename_i hz
          injection hf with hf
          subst hf
          simp only [Filter.AttributeFilter.set, Filter.AttributeFilter.isZero, Filter.Atf.set, List.foldl_cons, List.foldl_nil,
            Filter.Atf.set1, if_true, Filter.AttributeFilter.string]
          split
          · left
            have h1 : Attr.AttributeType.string (Attr.AT p) = p := by
              unfold Attr.AT at hz ⊢
              split
              · rfl
              · rename_i hn; rw [if_neg hn] at hz; exact absurd rfl hz
            rw [h1, e1]
            rfl
          · exact .inr ⟨hne, rfl⟩
  · cases h

theorem target_round {t u : Str} (h : targetRound t = some u) : u = unquote (condenseWHSP t) ∨ t ≠ [] ∧ u = [] := by
  left
  unfold targetRound Rules.assertTargetFilter at h
  simp only at h
  split at h
  · rename_i f hf
    cases h
    split at hf
    · cases hf
    · injection hf with hf
      subst hf
      rfl
  · cases h

/-- **C142** for ASCII text: reading and printing settles, at the latest after one round for every
byte and one more.  Missing: text above ASCII, which never settles (`C142_doubles`). -/
theorem C142_ascii_partial (t : Str) (h : ∀ c ∈ t, c < 128) :
    SettlesWithin filterRound (t.length + 1) t ∧ SettlesWithin targetRound (t.length + 1) t :=
  ⟨settle_ascii (fun _ _ => filter_round) (by decide +kernel) t h, settle_ascii (fun _ _ => target_round) (by decide +kernel) t h⟩

/-- One round is not enough: every round takes one pair of marks. -/
example : targetRound b!" \"\"'(cn=a)'\"\" " = some b!"\"'(cn=a)'\"" ∧ targetRound b!"\"'(cn=a)'\"" = some b!"'(cn=a)'" ∧
    targetRound b!"'(cn=a)'" = some b!"(cn=a)" ∧ targetRound b!"(cn=a)" = some b!"(cn=a)" := by decide +kernel

example : (∀ c ∈ b!" 'cn:(cn=a)' ", c < 128) ∧ filterRound b!" 'cn:(cn=a)' " = some b!"cn:(cn=a)" := by decide +kernel

end Verif.Settle
