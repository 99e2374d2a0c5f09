import Verif.Props.Builders
import Verif.Props.Time
import Verif.Props.Sec
import Verif.Lemmas.History

/-!
# Where rules about days, times and strengths hold (C135)
-/

namespace Verif.Moments
open Verif Verif.Spec Verif.Bind Verif.Builders

/-! ## The truth of such rules -/

/-- The truth values of dayofweek rules on the day `w`. -/
def OnDay (S : Shifty 8) (w : Weekday) (τ : BRule → Bool) : Prop :=
  ∀ r held, (∃ d, held d = true) →
    (DayRule S held .eq r → τ r = held w) ∧ (DayRule S held .ne r → τ r = !held w)

/-- A rule about the strength of a connection, with operator `q` and factor `v`. -/
def StrengthRule (r : BRule) (q : Rel) (v : Nat) : Prop :=
  r.valid = true ∧ r.core = ⟨true, BKw.ssf.name, relConst q⟩ ∧
    ∃ s, r.ex = .ssf s ∧ Sec.string s = Str.ofNat v

/-- The truth values of rules about strength for a connection of strength `n`. -/
def AtStrength (n : Nat) (τ : BRule → Bool) : Prop :=
  ∀ r q v, v ≤ 256 → StrengthRule r q v → τ r = q.holds n v

/-- The operator that says the opposite. -/
def opposite : Rel → Rel
  | .eq => .ne | .ne => .eq | .lt => .ge | .ge => .lt | .gt => .le | .le => .gt

theorem opposite_holds (q : Rel) (a b : Nat) : (opposite q).holds a b = !q.holds a b := by
  cases q <;> simp [opposite, Rel.holds] <;> (rw [Bool.eq_iff_iff]; simp)

/-- The set with the given days. -/
def week (a b c d e f g : Bool) : Weekday → Bool
  | .sun => a | .mon => b | .tue => c | .wed => d | .thu => e | .fri => f | .sat => g

theorem week_text : ∀ a b c d e f g : Bool, ∀ w ∈ Weekday.all,
    week a b c d e f g w = Str.containsStr (daysText (week a b c d e f g)) w.name := by decide +kernel

theorem daysText_inj (f g : Weekday → Bool) (h : daysText f = daysText g) : f = g := by
  have key : ∀ f : Weekday → Bool, ∀ w, f w = Str.containsStr (daysText f) w.name := by
    intro f w
    have e : f = week (f .sun) (f .mon) (f .tue) (f .wed) (f .thu) (f .fri) (f .sat) := by
      funext d; cases d <;> rfl
    rw [e]
    exact week_text _ _ _ _ _ _ _ w (by cases w <;> decide)
  funext w
  rw [key f, key g, h]

theorem onDay_exists (S : Shifty 8) (w : Weekday) : ∃ τ, OnDay S w τ := by
  classical
  refine ⟨fun r => decide (∃ held, (DayRule S held .eq r ∧ held w = true) ∨ (DayRule S held .ne r ∧ held w = false)), ?_⟩
  intro r held _
  have same : ∀ h q q', DayRule S h q r → DayRule S held q' r → h = held ∧ q = q' := by
    rintro h q q' ⟨_, c1, d1, e1, s1⟩ ⟨_, c2, d2, e2, s2⟩
    rw [e1] at e2; cases e2
    rw [c1] at c2
    exact ⟨daysText_inj _ _ (s1.symm.trans s2), relConst_inj (by injection c2)⟩
  constructor
  · intro hr
    rw [Bool.eq_iff_iff, decide_eq_true_eq]
    constructor
    · rintro ⟨h, ⟨h1, h2⟩ | ⟨h1, h2⟩⟩
      · rw [← (same h _ _ h1 hr).1]; exact h2
      · exact absurd (same h _ _ h1 hr).2 (by decide)
    · exact fun h => ⟨held, Or.inl ⟨hr, h⟩⟩
  · intro hr
    rw [Bool.eq_iff_iff, decide_eq_true_eq]
    constructor
    · rintro ⟨h, ⟨h1, h2⟩ | ⟨h1, h2⟩⟩
      · exact absurd (same h _ _ h1 hr).2 (by decide)
      · rw [← (same h _ _ h1 hr).1, h2]; rfl
    · exact fun h => ⟨held, Or.inr ⟨hr, by simpa using h⟩⟩

theorem ofNat_inj (a b : Nat) (ha : a ≤ 256) (hb : b ≤ 256) (h : Str.ofNat a = Str.ofNat b) : a = b := by
  have e := congrArg Str.atoi h
  rw [Str.atoi_ofNat a (by omega), Str.atoi_ofNat b (by omega)] at e
  simp only [Prod.mk.injEq] at e
  omega

theorem atStrength_exists (n : Nat) : ∃ τ, AtStrength n τ := by
  classical
  refine ⟨fun r => decide (∃ q v, v ≤ 256 ∧ StrengthRule r q v ∧ q.holds n v = true), ?_⟩
  intro r q v hv hr
  rw [Bool.eq_iff_iff, decide_eq_true_eq]
  constructor
  · rintro ⟨q', v', hv', ⟨_, c1, d1, e1, s1⟩, hh⟩
    obtain ⟨_, c2, d2, e2, s2⟩ := hr
    rw [e1] at e2; cases e2
    rw [c1] at c2
    have hq : q' = q := relConst_inj (by injection c2)
    have := ofNat_inj _ _ hv' hv (s1.symm.trans s2)
    subst this; subst hq; exact hh
  · exact fun h => ⟨q, v, hv, hr, h⟩

/-! ## Days -/

theorem heldAfter_shift {α : Type} (m : α → Prop) (x : List α) :
    HeldAfter m False (x.map fun a => ⟨true, a⟩) ↔ ∃ a ∈ x, m a := by
  suffices H : ∀ r : List α, HeldAfter m False (r.reverse.map fun a => ⟨true, a⟩) ↔ ∃ a ∈ r.reverse, m a by
    simpa using H x.reverse
  intro r
  induction r with
  | nil => simp [heldAfter_nil]
  | cons a r ih =>
    rw [List.reverse_cons, List.map_append, List.map_cons, List.map_nil, heldAfter_snoc, ih]
    by_cases h : m a
    · simp [h]
    · simp only [h, false_and, not_false_eq_true, true_and, false_or, List.mem_append, List.mem_cons, List.not_mem_nil, or_false]
      constructor
      · rintro ⟨b, hb, hm⟩; exact ⟨b, Or.inl hb, hm⟩
      · rintro ⟨b, hb | rfl, hm⟩
        · exact ⟨b, hb, hm⟩
        · exact absurd hm h

theorem dow_holds (S : Shifty 8) (x : List Time.Arg) (w : Weekday) :
    Time.holds S (Time.DoW x) w = true ↔ ∃ a ∈ x, Time.Mentions w a := by
  have := Time.C10_from_constructor S x [] w
  simp only [List.foldl_nil, List.flatMap_cons, List.flatMap_nil, List.append_nil] at this
  rw [this]
  exact heldAfter_shift _ x

theorem dow_made (S : Shifty 8) (x : List Time.Arg) (hx : ∀ a ∈ x, Time.ArgDays a)
    (hd : ∃ d, ∃ a ∈ x, Time.Mentions d a) (q : Rel) (hq : q = .eq ∨ q = .ne) :
    DayRule S (Time.holds S (Time.DoW x)) q (dowCond S (relConst q) (Time.DoW x)) := by
  have ho : Time.OnlyDays (Time.DoW x) := Time.C11_reachable x [] (by
    intro k hk a ha
    simp only [List.mem_cons, List.not_mem_nil, or_false] at hk
    subst hk
    exact hx a ha)
  obtain ⟨d, hd⟩ := hd
  have hd := (dow_holds S x d).2 hd
  obtain ⟨v, hv⟩ : ∃ v, Time.DoW x = some v := ⟨_, rfl⟩
  rw [hv] at ho hd ⊢
  have hv0 : v ≠ 0#8 := by
    rintro rfl
    have := Time.holds_bit S (some 0#8) d
    rw [hd] at this
    simp at this
  have h1 := dowCond_rule S q hq v (ho v rfl) hv0
  have : Time.holds S (some v) = Time.heldOf v := funext fun d => Time.holds_bit S (some v) d
  rw [this]; exact h1

/-- **C135** for days: the rule that asks for a set of days holds on the days given, and the one
that excludes them on the others. -/
theorem C135_days (S : Shifty 8) (x : List Time.Arg) (hx : ∀ a ∈ x, Time.ArgDays a)
    (hd : ∃ d, ∃ a ∈ x, Time.Mentions d a) (w : Weekday) (τ : BRule → Bool) (hτ : OnDay S w τ) :
    (dowCond S (relConst .eq) (Time.DoW x)).valid = true ∧ (dowCond S (relConst .ne) (Time.DoW x)).valid = true ∧
    (τ (dowCond S (relConst .eq) (Time.DoW x)) = true ↔ ∃ a ∈ x, Time.Mentions w a) ∧
    (τ (dowCond S (relConst .ne) (Time.DoW x)) = true ↔ ¬ ∃ a ∈ x, Time.Mentions w a) := by
  have h1 := dow_made S x hx hd .eq (Or.inl rfl)
  have h2 := dow_made S x hx hd .ne (Or.inr rfl)
  have he : ∃ d, Time.holds S (Time.DoW x) d = true := by
    obtain ⟨d, h⟩ := hd
    exact ⟨d, (dow_holds S x d).2 h⟩
  refine ⟨h1.1, h2.1, ?_, ?_⟩
  · rw [(hτ _ _ he).1 h1, dow_holds]
  · rw [(hτ _ _ he).2 h2, ← dow_holds S x w]; simp

example : (∀ a ∈ [Time.Arg.str b!"Mon", .int 3], Time.ArgDays a) ∧
    (∃ a ∈ [Time.Arg.str b!"Mon", .int 3], Time.Mentions .tue a) ∧ ∃ τ, OnDay (.anyRef 8) .tue τ := by
  refine ⟨by simp [Time.ArgDays], ⟨.int 3, by simp, by simp only [Time.Mentions]; decide⟩, onDay_exists _ _⟩

/-- **C135** for the week: the rules for weekdays and for the weekend are never both true and never
both false. -/
theorem C135_week (S : Shifty 8) (m n : List (Cop × BRule)) (hm : m.Perm (dowMethods S weekdays))
    (hn : n.Perm (dowMethods S weekend)) (w : Weekday) (τ : BRule → Bool) (hτ : OnDay S w τ) :
    ∃ r s r' s', dayRule (some m) (.cop (relConst .eq)) = some r ∧ dayRule (some n) (.cop (relConst .eq)) = some s ∧
      dayRule (some m) (.cop (relConst .ne)) = some r' ∧ dayRule (some n) (.cop (relConst .ne)) = some s' ∧
      τ r = (!isWeekend w) ∧ τ s = isWeekend w ∧ τ r' = τ s ∧ τ s' = τ r := by
  have k1 := C64_days_partial S (.cop (relConst .eq))
  have k2 := C64_days_partial S (.cop (relConst .ne))
  obtain ⟨r, hr, dr⟩ := (k1.1 m hm).1 .eq (Or.inl rfl) (Or.inl rfl)
  obtain ⟨s, hs, ds⟩ := (k1.2 n hn).1 .eq (Or.inl rfl) (Or.inl rfl)
  obtain ⟨r', hr', dr'⟩ := (k2.1 m hm).1 .ne (Or.inl rfl) (Or.inr rfl)
  obtain ⟨s', hs', ds'⟩ := (k2.2 n hn).1 .ne (Or.inl rfl) (Or.inr rfl)
  have h1 : ∃ d, (fun d => !isWeekend d) d = true := ⟨.mon, rfl⟩
  have h2 : ∃ d, isWeekend d = true := ⟨.sun, rfl⟩
  have e1 := (hτ _ _ h1).1 dr
  have e2 := (hτ _ _ h2).1 ds
  have e3 := (hτ _ _ h1).2 dr'
  have e4 := (hτ _ _ h2).2 ds'
  exact ⟨r, s, r', s', hr, hs, hr', hs', e1, e2, by rw [e3, e2]; simp, by rw [e4, e1]⟩

example : ∃ τ, OnDay (.anyRef 8) .sat τ := onDay_exists _ _

/-! ## Times -/

/-- **C135** for times: a rule with one of the six operators holds at the times of the day that stand
in this relation to the time given, and the opposite operator says the opposite. -/
theorem C135_clock (q : Rel) (t : Time.TimeOfDay) (h' m' : Nat) (hc : Clock h' m')
    (ht : Time.TimeOfDay.string t = clockText h' m') (h m : Nat) (τ : BRule → Bool) (hτ : AtClock h m τ) :
    (todCond (relConst q) t).valid = true ∧
    τ (todCond (relConst q) t) = q.holds (60 * h + m) (60 * h' + m') ∧
    τ (todCond (relConst (opposite q)) t) = !τ (todCond (relConst q) t) := by
  have h1 := todCond_clock q t h' m' ht
  have h2 := todCond_clock (opposite q) t h' m' ht
  have e1 := hτ _ _ _ _ hc h1.1
  have e2 := hτ _ _ _ _ hc h2.1
  exact ⟨h1.2.1, e1, by rw [e1, e2, opposite_holds]⟩

example : Clock 13 37 ∧ Time.TimeOfDay.string (Time.ToD [.str (clockText 13 37)]) = clockText 13 37 ∧ ∃ τ, AtClock 9 0 τ :=
  ⟨Or.inl (by decide), (C16_from 13 37).1 (Or.inl (by decide)), atClock_exists _ _⟩

/-- **C135** for time frames: two frames that meet are together the long frame and never hold at once. -/
theorem C135_frames (stop : Bool) (neg : List Bool → Bool) (a b c : Time.TimeOfDay) (ha ma hb mb hc mc : Nat)
    (ka : Clock ha ma) (kb : Clock hb mb) (kc : Clock hc mc)
    (hsa : Time.TimeOfDay.string a = clockText ha ma) (hsb : Time.TimeOfDay.string b = clockText hb mb)
    (hsc : Time.TimeOfDay.string c = clockText hc mc)
    (hab : 60 * ha + ma ≤ 60 * hb + mb) (hbc : 60 * hb + mb ≤ 60 * hc + mc)
    (h m : Nat) (τ : BRule → Bool) (hτ : AtClock h m τ) :
    ((timeframe stop a b).eval neg τ || (timeframe stop b c).eval neg τ) = (timeframe stop a c).eval neg τ ∧
    ((timeframe stop a b).eval neg τ && (timeframe stop b c).eval neg τ) = false ∧
    (timeframe stop a a).eval neg τ = false := by
  obtain ⟨_, _, _, _, _, _, _, e1⟩ := C16_timeframe stop a b ha ma hb mb ka kb hsa hsb
  obtain ⟨_, _, _, _, _, _, _, e2⟩ := C16_timeframe stop b c hb mb hc mc kb kc hsb hsc
  obtain ⟨_, _, _, _, _, _, _, e3⟩ := C16_timeframe stop a c ha ma hc mc ka kc hsa hsc
  obtain ⟨_, _, _, _, _, _, _, e4⟩ := C16_timeframe stop a a ha ma ha ma ka ka hsa hsa
  have e1 := e1 h m neg τ hτ
  have e2 := e2 h m neg τ hτ
  have e3 := e3 h m neg τ hτ
  have e4 := e4 h m neg τ hτ
  refine ⟨?_, ?_, ?_⟩
  · rw [Bool.eq_iff_iff, Bool.or_eq_true, e1, e2, e3]; omega
  · rw [Bool.eq_false_iff, ne_eq, Bool.and_eq_true, e1, e2]; omega
  · rw [Bool.eq_false_iff, ne_eq, e4]; omega

example : Clock 8 30 ∧ Clock 12 0 ∧ Clock 24 0 ∧ 60 * 8 + 30 ≤ 60 * 12 + 0 ∧ 60 * 12 + 0 ≤ 60 * 24 + 0 :=
  ⟨Or.inl (by decide), Or.inl (by decide), Or.inr ⟨rfl, rfl⟩, by decide, by decide⟩

/-- **C135** for time frames: the frame from midnight to midnight always holds. -/
theorem C135_whole_day (stop : Bool) (neg : List Bool → Bool) (h m : Nat) (hh : h < 24) (hm : m < 60)
    (τ : BRule → Bool) (hτ : AtClock h m τ) :
    (timeframe stop (Time.ToD [.str b!"0000"]) (Time.ToD [.str b!"2400"])).eval neg τ = true := by
  obtain ⟨_, _, _, _, _, _, _, e⟩ := C16_timeframe stop (Time.ToD [.str b!"0000"]) (Time.ToD [.str b!"2400"]) 0 0 24 0
    (Or.inl (by decide)) (Or.inr ⟨rfl, rfl⟩) (by decide) (by decide)
  exact (e h m neg τ hτ).2 (by omega)

example : ∃ τ, AtClock 23 59 τ := atClock_exists _ _

/-! ## Strengths -/

/-- **C135** for strengths: a rule with one of the six operators holds for the strengths that stand in
this relation to the factor, and the opposite operator says the opposite. -/
theorem C135_factor (q : Rel) (s : Sec.SecurityStrengthFactor) (v : Nat) (hv : v ≤ 256)
    (hs : Sec.string s = Str.ofNat v) (n : Nat) (τ : BRule → Bool) (hτ : AtStrength n τ) :
    (ssfCond (relConst q) s).valid = true ∧
    τ (ssfCond (relConst q) s) = q.holds n v ∧
    τ (ssfCond (relConst (opposite q)) s) = !τ (ssfCond (relConst q) s) := by
  have made : ∀ q, StrengthRule (ssfCond (relConst q) s) q v := by
    intro q
    obtain ⟨h1, h2, h3⟩ := br_made .ssf q (by cases q <;> rfl) (.ssf s) rfl
    exact ⟨h1, h2, _, h3, hs⟩
  have e1 := hτ _ _ _ hv (made q)
  have e2 := hτ _ _ _ hv (made (opposite q))
  exact ⟨(made q).1, e1, by rw [e1, e2, opposite_holds]⟩

example : Sec.string (Sec.SSF [.str b!"MAX"]) = Str.ofNat 256 ∧ ∃ τ, AtStrength 128 τ :=
  ⟨by decide +kernel, atStrength_exists _⟩

/-- **C135** for strengths made from numbers: the factor is the number, put into the range 0 to 256. -/
theorem C135_strength (q : Rel) (v : Int) (n : Nat) (τ : BRule → Bool) (hτ : AtStrength n τ) :
    (ssfCond (relConst q) (Sec.SSF [.int v])).valid = true ∧
    τ (ssfCond (relConst q) (Sec.SSF [.int v])) = q.holds n (max 0 (min v 256)).toNat :=
  have h := C135_factor q _ (clampSSF v) (by unfold clampSSF; omega) (Sec.C26_from_int none v).2 n τ hτ
  ⟨h.1, h.2.1⟩

example : ∃ τ, AtStrength 128 τ := atStrength_exists _

/-- **C135** for strengths: what is strong enough for a factor is strong enough for every smaller one. -/
theorem C135_stronger (u v : Int) (huv : u ≤ v) (n n' : Nat) (hn : n ≤ n') (τ τ' : BRule → Bool) (hτ : AtStrength n τ)
    (hτ' : AtStrength n' τ')
    (h : τ (ssfCond (relConst .ge) (Sec.SSF [.int v])) = true) :
    τ' (ssfCond (relConst .ge) (Sec.SSF [.int u])) = true := by
  rw [(C135_strength .ge v n τ hτ).2] at h
  rw [(C135_strength .ge u n' τ' hτ').2]
  simp only [Rel.holds, decide_eq_true_eq, ge_iff_le] at h ⊢
  omega

example : (∃ τ, AtStrength 128 τ) ∧ Rel.holds .ge 128 (max 0 (min (71 : Int) 256)).toNat = true :=
  ⟨atStrength_exists _, by decide⟩

end Verif.Moments
