import Verif.Model.Compare
import Verif.Props.Misc
import Verif.Props.Rights
import Verif.Props.Levels
import Verif.Props.Time
import Verif.Props.Net
import Verif.Props.Sec
import Verif.Props.Scope
import Verif.Lemmas.Num

/-!
# C87: `Compare` tells values apart and knows them again
-/

namespace Verif.Compare
open Verif Verif.Spec Verif.Misc

/-- The hash has no collisions. -/
def NoCollisions (sha : Str → Str) : Prop := ∀ a b, sha a = sha b → a = b

/-- What C87 says of one type: of two usable values, `Compare` holds exactly if they
are the same. -/
def Faithful {α : Type} (compare : (Str → Str) → α → α → Bool) (usable : α → Prop)
    (same : α → α → Prop) : Prop :=
  ∀ sha, NoCollisions sha → ∀ r x, usable r → usable x → (compare sha r x = true ↔ same r x)

private theorem seen_iff {sha : Str → Str} (h : NoCollisions sha) (z z' : Bool) (t t' : Str) :
    compareHashInstance sha (seen z t) (seen z' t') = true ↔
      z = false ∧ z' = false ∧ t ≠ [] ∧ t = t' := by
  rw [C56_exact sha h]
  cases z <;> cases z'
  · by_cases ht : t = []
    · subst ht; simp [seen, usableText]
    · by_cases ht' : t' = []
      · subst ht'; simp [seen, usableText, ht]
      · simp [seen, usableText, ht, ht', eq_comm]
  all_goals simp [seen, usableText]

private theorem faithful_of {α : Type} (zero : α → Bool) (text : α → Str) (usable : α → Prop)
    (same : α → α → Prop)
    (ok : ∀ r, usable r → zero r = false ∧ text r ≠ [])
    (inj : ∀ r x, usable r → usable x → (text r = text x ↔ same r x)) :
    Faithful (fun sha r x => compareHashInstance sha (seen (zero r) (text r)) (seen (zero x) (text x)))
      usable same := by
  intro sha h r x hr hx
  rw [seen_iff h, ← inj r x hr hx]
  simp [ok r hr, ok x hx]

/-! ## Rights and permissions -/

/-- The twelve constants of the documentation. -/
def rights : List Rights.Right :=
  Rights.NoAccess :: Rights.AllAccess :: Spec.Priv.all.map Rights.const

/-- C87 for rights. -/
def ClaimRights : Prop := Faithful right (· ∈ rights) (· = ·)

/-- C87 for strength factors: a factor is the number it stands for. -/
def number : Sec.SecurityStrengthFactor → Nat
  | some (some b) => b.toNat + 1
  | _ => 0

def ClaimFactors : Prop := Faithful factor (fun _ => True) fun r x => number r = number x

/-- **C87, negation**: `NoAccess` is the number 0 and not comparable with anything, not
even with itself; an unset strength factor, which prints `0`, differs from a factor
of 0 and from itself. -/
theorem C87_counterexample : ¬ ClaimRights ∧ ¬ ClaimFactors := by
  constructor
  · intro h
    have := (h id (fun _ _ e => e) Rights.NoAccess Rights.NoAccess List.mem_cons_self
      List.mem_cons_self).2 rfl
    exact absurd this (by decide +kernel)
  · intro h
    have := (h id (fun _ _ e => e) none (some none) trivial trivial).2 rfl
    exact absurd this (by decide)

example : Sec.string none = b!"0" ∧ Sec.string (some none) = b!"0" ∧
    factor id none none = false ∧ right id Rights.NoAccess Rights.NoAccess = false := by decide

/-- **C87** for the rights other than `NoAccess`.  Missing: `NoAccess` itself, which
compares unequal to itself. -/
theorem C87_rights_partial :
    Faithful right (fun r => r ∈ rights ∧ r ≠ Rights.NoAccess) (· = ·) := by
  refine faithful_of (fun r => r == 0#16) Rights.Right.string _ _ ?_ ?_
  · rintro r ⟨h, h'⟩
    have key : (rights.all fun r => decide (Rights.Right.string r ≠ [])) = true := by decide +kernel
    exact ⟨by simpa [Rights.NoAccess] using h', of_decide_eq_true (List.all_eq_true.1 key r h)⟩
  · rintro r x ⟨hr, _⟩ ⟨hx, _⟩
    have key : (rights.all fun r => rights.all fun x =>
        decide (Rights.Right.string r = Rights.Right.string x → r = x)) = true := by decide +kernel
    exact ⟨of_decide_eq_true (List.all_eq_true.1 (List.all_eq_true.1 key r hr) x hx),
      fun e => by rw [e]⟩

example : right id Rights.ReadAccess Rights.ReadAccess = true ∧
    right id Rights.ReadAccess Rights.AllAccess = false := by decide +kernel

/-- **C87** for permissions over the ten rights: they compare equal exactly if both
allow or both deny, the same rights. -/
theorem C87_permissions (S : Shifty 16) :
    Faithful (permission S) (fun p => Rights.valid p = true ∧ Rights.WithinTen p)
      fun p q => Rights.stored p = Rights.stored q ∧
        ∀ r, Rights.grants S p r = Rights.grants S q r := by
  refine faithful_of (fun p => Option.isNone p) (Rights.string S) _ _ ?_ ?_
  · rintro p ⟨hv, hw⟩
    obtain ⟨allow, _, _, ht⟩ := Rights.C02_text S p hv hw
    refine ⟨?_, ?_⟩
    · cases p with
      | none => exact absurd hv (by decide)
      | some c => rfl
    · cases p with
      | none => exact absurd hv (by decide)
      | some c =>
        have : ∀ l, Rights.sprintf (some c) l ≠ [] := by
          intro l h
          have := congrArg List.length h
          simp [Rights.sprintf] at this
        simp only [Rights.string]
        split
        · exact this _
        · split
          · exact this _
          · split <;> exact this _
  · rintro p q ⟨hp, hp'⟩ ⟨hq, hq'⟩
    exact Rights.C02_text_injective S p q hp hq hp' hq'

example : (Rights.valid (Rights.Allow (.anyRef 16) [.right Rights.ReadAccess]) = true ∧
    Rights.WithinTen (Rights.Allow (.anyRef 16) [.right Rights.ReadAccess])) ∧
    permission (.anyRef 16) id (Rights.Allow (.anyRef 16) [.right Rights.ReadAccess])
      (Rights.Allow (.anyRef 16) [.int 1]) = true ∧
    permission (.anyRef 16) id (Rights.Allow (.anyRef 16) [.right Rights.ReadAccess])
      (Rights.Deny (.anyRef 16) [.int 1]) = false := by
  refine ⟨⟨rfl, ?_⟩, ?_⟩
  · show _ < 1024
    decide +kernel
  · decide +kernel

/-! ## Strength factors, scopes, authentication methods -/

private theorem ofNat_inj {a b : Nat} (ha : a < 65536) (hb : b < 65536)
    (h : Str.ofNat a = Str.ofNat b) : a = b := by
  have e := congrArg Str.atoi h
  rw [Str.atoi_ofNat a (by omega), Str.atoi_ofNat b (by omega)] at e
  simp only [Prod.mk.injEq] at e
  omega

private theorem factor_text (r : Sec.SecurityStrengthFactor) :
    Sec.string r = Str.ofNat (number r) ∧ number r < 65536 := by
  match r with
  | none => exact ⟨by decide +kernel, by decide⟩
  | some none => exact ⟨by decide +kernel, by decide⟩
  | some (some b) => exact ⟨rfl, by have := b.toNat_lt; simp only [number]; omega⟩

/-- **C87** for strength factors made by `SSF` or `Set`.  Missing: the unset factor,
which differs from itself. -/
theorem C87_factors_partial :
    Faithful factor (fun r => (∃ a, r = Sec.SSF a) ∨ ∃ q a, r = Sec.set q a)
      fun r x => number r = number x := by
  refine faithful_of (fun r => Option.isNone r) Sec.string _ _ ?_ ?_
  · intro r hr
    refine ⟨?_, by rw [(factor_text r).1]; exact Str.ofNat_ne_nil _⟩
    rcases hr with ⟨a, rfl⟩ | ⟨q, a, rfl⟩
    · cases a <;> rfl
    · cases q <;> rfl
  · intro r x _ _
    rw [(factor_text r).1, (factor_text x).1]
    exact ⟨ofNat_inj (factor_text r).2 (factor_text x).2, fun e => by rw [e]⟩

example : factor id (Sec.SSF [.int 128]) (Sec.SSF [.str b!"128"]) = true ∧
    factor id (Sec.SSF [.int 128]) (Sec.SSF [.int 0]) = false := by decide +kernel

/-- **C87** for the four scopes. -/
theorem C87_scopes :
    Faithful scope (fun r => ∃ k, r = SearchScope.const k) (· = ·) := by
  refine faithful_of (fun r => r == 0) SearchScope.string _ _ ?_ ?_
  · rintro r ⟨k, rfl⟩
    cases k <;> decide
  · rintro r x ⟨k, rfl⟩ ⟨l, rfl⟩
    cases k <;> cases l <;> decide

example : scope id SearchScope.Subtree SearchScope.Subtree = true ∧
    scope id SearchScope.Subtree SearchScope.BaseObject = false := by decide

/-- **C87** for the seven authentication methods, for any orders of the map and both
letter cases. -/
theorem C87_methods (names names' : List (Str × Sec.AuthenticationMethod))
    (hn : names.Perm Sec.authNames) (hn' : names'.Perm Sec.authNames) (low : Bool) :
    Faithful (method names names' low) (fun r => ∃ a, r = Sec.authConst a) (· = ·) := by
  rintro sha h r x ⟨a, rfl⟩ ⟨b, rfl⟩
  have ha := Sec.C28_round_trip [] names names' hn hn' low a
  have hb := Sec.C28_round_trip [] names' names' hn' hn' low b
  rw [method, seen_iff h]
  constructor
  · rintro ⟨_, _, _, e⟩
    rw [← ha.2.2.2, e, hb.2.2.2]
  · intro e
    have hb' := Sec.C28_round_trip [] names names' hn hn' low b
    have z : ∀ c, (Sec.authConst c == (0 : UInt8)) = false := by intro c; cases c <;> decide
    have t : ∀ (l : List (Str × Sec.AuthenticationMethod)), l.Perm Sec.authNames → ∀ c,
        Sec.authString l low (Sec.authConst c) = Sec.foldAuthenticationMethod low (Spec.Auth.name c) := by
      intro l hl c
      have mem : (Spec.Auth.name c, Sec.authConst c) ∈ l := hl.mem_iff.2 (by cases c <;> decide +kernel)
      have cov : ∀ e ∈ l, ∀ d, e.2 = Sec.authConst d → e.1 = Spec.Auth.name d := by
        intro e he d
        have key : ∀ d ∈ Spec.Auth.all, ∀ e ∈ Sec.authNames, e.2 = Sec.authConst d →
            e.1 = Spec.Auth.name d := by decide +kernel
        exact key d (by cases d <;> decide) e (hl.mem_iff.1 he)
      clear hl
      induction l with
      | nil => exact absurd mem (by simp)
      | cons e l ih =>
        obtain ⟨k, v⟩ := e
        simp only [Sec.authString]
        by_cases hv : v = Sec.authConst c
        · rw [if_pos hv, show k = _ from cov (k, v) (by simp) c hv]
        · rw [if_neg hv]
          refine ih ?_ (fun e he => cov e (by simp [he]))
          rcases List.mem_cons.1 mem with hm | hm
          · exact absurd (Prod.mk.inj hm).2.symm hv
          · exact hm
    refine ⟨z a, z b, ?_, ?_⟩
    · rw [t names hn]
      cases low <;> cases a <;> decide +kernel
    · rw [t names hn, t names' hn']
      have : a = b := by revert e; cases a <;> cases b <;> decide
      rw [this]

example : method Sec.authNames Sec.authNames.reverse true id Sec.SASL Sec.SASL = true ∧
    method Sec.authNames Sec.authNames.reverse true id Sec.SASL Sec.EXTERNAL = false := by
  decide +kernel

/-! ## Levels and inheritance -/

private theorem level_text (m : List (Str × Levels.Level)) (hm : m.Perm Levels.levelNumbers)
    (n : Fin 10) : Levels.levelStringOn m (Levels.const n) = Str.ofNat n := by
  have mem : (Str.ofNat n, Levels.const n) ∈ m := by
    have key : ∀ n : Fin 10, (Str.ofNat n, Levels.const n) ∈ Levels.levelNumbers := by decide +kernel
    exact hm.mem_iff.2 (key n)
  have cov : ∀ e ∈ m, e.2 = Levels.const n → e.1 = Str.ofNat n := by
    intro e he
    have key : ∀ n : Fin 10, ∀ e ∈ Levels.levelNumbers, e.2 = Levels.const n → e.1 = Str.ofNat n := by
      decide +kernel
    exact key n e (hm.mem_iff.1 he)
  clear hm
  induction m with
  | nil => exact absurd mem (by simp)
  | cons e m ih =>
    obtain ⟨k, v⟩ := e
    simp only [Levels.levelStringOn]
    by_cases hv : Levels.const n = v
    · rw [if_pos hv]; exact cov (k, v) (by simp) hv.symm
    · rw [if_neg hv]
      refine ih ?_ (fun e he => cov e (by simp [he]))
      rcases List.mem_cons.1 mem with h | h
      · exact absurd (Prod.mk.inj h).2 hv
      · exact h

/-- **C87** for the ten levels, for any orders of the map. -/
theorem C87_levels (m m' : List (Str × Levels.Level)) (hm : m.Perm Levels.levelNumbers)
    (hm' : m'.Perm Levels.levelNumbers) :
    Faithful (level m m') (fun r => ∃ n, r = Levels.const n) (· = ·) := by
  rintro sha h r x ⟨a, rfl⟩ ⟨b, rfl⟩
  rw [level, seen_iff h, level_text m hm, level_text m' hm']
  have z : ∀ n, (Levels.const n == 0#16) = false := by decide +kernel
  constructor
  · rintro ⟨_, _, _, e⟩
    have : a = b := Fin.ext (ofNat_inj (by omega) (by omega) e)
    rw [this]
  · intro e
    have : ∀ a b, Levels.const a = Levels.const b → a = b := by decide +kernel
    rw [this a b e]
    exact ⟨z _, z _, Str.ofNat_ne_nil _, rfl⟩

example : level Levels.levelNumbers Levels.levelNumbers.reverse id Levels.Level3 Levels.Level3 = true ∧
    level Levels.levelNumbers Levels.levelNumbers.reverse id Levels.Level3 Levels.Level4 = false := by
  decide +kernel

/-- An inheritance made by `Inherit` of at least one level constant and a pair whose
text reads back as the pair. -/
def Inherits (r : Levels.Inheritance) : Prop :=
  ∃ (ls : List (Fin 10)) (t : Str) (A : Attr.ABTV), ls ≠ [] ∧ Attr.parseATBTV t [] = .ok A ∧
    A.string = some t ∧ r = Levels.Inherit A (ls.map fun n => .level (Levels.const n))

/-- **C87** for inheritances: they compare equal exactly if they are equal, that is,
have the same levels and the same pair. -/
theorem C87_inheritances (S : Shifty 16) : Faithful (inheritance S) Inherits (· = ·) := by
  refine faithful_of (fun r => Option.isNone r) (Levels.string S) _ _ ?_ ?_
  · rintro r ⟨ls, t, A, hne, hp, ht, rfl⟩
    refine ⟨rfl, ?_⟩
    rw [(Levels.C07_from_constructor S ls hne t A hp ht).1]
    simp [Spec.inheritText]
  · rintro r x ⟨ls, t, A, hne, hp, ht, rfl⟩ ⟨ls', t', A', hne', hp', ht', rfl⟩
    refine ⟨fun e => ?_, fun e => by rw [e]⟩
    have h1 := (Levels.C07_from_constructor S ls hne t A hp ht).2
    have h2 := (Levels.C07_from_constructor S ls' hne' t' A' hp' ht').2
    rw [e, h2] at h1
    exact (Levels.Outcome.ok.inj h1).symm

example : ∃ A, Inherits (Levels.Inherit A [.level (Levels.const 3)]) :=
  ⟨_, [3], b!"manager#USERDN", _, by simp, Attr.parse_ok.2 ⟨b!"manager", b!"USERDN", rfl,
    Or.inl ((isIdentifier_iff _).1 (by decide)), rfl⟩, by decide, rfl⟩

/-! ## Days and clock times -/

/-- **C87** for sets of days that hold a day. -/
theorem C87_days (S : Shifty 8) :
    Faithful (days S) (fun r => Time.OnlyDays r ∧ ∃ d, Time.holds S r d = true)
      fun r x => ∀ d, Time.holds S r d = Time.holds S x d := by
  refine faithful_of (fun r => Option.isNone r) (Time.string S) _ _ ?_ ?_
  · rintro r ⟨ho, d, hd⟩
    refine ⟨?_, ?_⟩
    · cases r with
      | none => simp [Time.holds, Time.positive] at hd
      | some v => rfl
    · rw [Time.C11_text S r ho d hd]
      intro h
      have hr := Time.C11_round_trip S r ho d hd [] (by
        rw [Time.C11_text S r ho d hd, h]; rfl)
      have : Time.parseDoW S [] = .error () := by
        rw [Time.parseDoW, Time.parseLoop_eq]; rfl
      rw [this] at hr
      exact absurd hr (by simp)
  · rintro r x ⟨ho, d, hd⟩ ⟨ho', d', hd'⟩
    refine ⟨Time.C11_text_injective S r x ho ho' d hd d' hd', fun e => ?_⟩
    rw [Time.C11_text S r ho d hd, Time.C11_text S x ho' d' hd', funext e]

example : days (.anyRef 8) id (Time.DoW [.int 1, .int 2]) (Time.DoW [.str b!"Mon", .str b!"sunday"]) = true ∧
    days (.anyRef 8) id (Time.DoW [.int 1]) (Time.DoW [.int 2]) = false := by decide +kernel

private theorem ofNat_long {n : Nat} (h : 10000 ≤ n) : 5 ≤ (Str.ofNat n).length := by
  rw [Str.ofNat_big (n := n) (by omega), Str.ofNat_big (n := n / 10) (by omega),
    Str.ofNat_big (n := n / 10 / 10) (by omega), Str.ofNat_big (n := n / 10 / 10 / 10) (by omega)]
  have := List.length_pos_iff.2 (Str.ofNat_ne_nil (n / 10 / 10 / 10 / 10))
  simp
  omega

private theorem pad_inj {a b : Nat} (ha : a < 65536) (hb : b < 65536)
    (h : Time.padDec 4 a = Time.padDec 4 b) : a = b := by
  have digit_inj : ∀ i : Fin 10, ∀ j : Fin 10, Str.digit i.1 = Str.digit j.1 → i = j := by decide +kernel
  have dinj : ∀ i j, i < 10 → j < 10 → Str.digit i = Str.digit j → i = j := by
    intro i j hi hj e
    exact congrArg Fin.val (digit_inj ⟨i, hi⟩ ⟨j, hj⟩ e)
  have long : ∀ n, 10000 ≤ n → Time.padDec 4 n = Str.ofNat n := by
    intro n hn
    have := ofNat_long hn
    have z : 4 - (Str.ofNat n).length = 0 := by omega
    rw [Time.padDec, z]; rfl
  by_cases h1 : a < 10000
  · by_cases h2 : b < 10000
    · rw [Time.padDec4 h1, Time.padDec4 h2] at h
      simp only [List.cons.injEq, and_true] at h
      obtain ⟨e1, e2, e3, e4⟩ := h
      have := dinj _ _ (by omega) (by omega) e1
      have := dinj _ _ (by omega) (by omega) e2
      have := dinj _ _ (by omega) (by omega) e3
      have := dinj _ _ (by omega) (by omega) e4
      omega
    · rw [Time.padDec4 h1, long b (by omega)] at h
      have := ofNat_long (n := b) (by omega)
      rw [← h] at this
      simp at this
  · by_cases h2 : b < 10000
    · rw [Time.padDec4 h2, long a (by omega)] at h
      have := ofNat_long (n := a) (by omega)
      rw [h] at this
      simp at this
    · rw [long a (by omega), long b (by omega)] at h
      exact ofNat_inj ha hb h

/-- **C87** for clock times that are not unset. -/
theorem C87_clocks : Faithful clock (fun r => r ≠ none) (· = ·) := by
  refine faithful_of (fun r => Option.isNone r) Time.TimeOfDay.string _ _ ?_ ?_
  · intro r hr
    cases r with
    | none => exact absurd rfl hr
    | some b =>
      refine ⟨rfl, fun h => ?_⟩
      have := congrArg List.length h
      have p := List.length_pos_iff.2 (Str.ofNat_ne_nil (Time.getUint16 b))
      rw [Time.TimeOfDay.string, Time.padDec, List.length_append, List.length_nil] at this
      omega
  · intro r x hr hx
    refine ⟨fun e => ?_, fun e => by rw [e]⟩
    cases r with
    | none => exact absurd rfl hr
    | some b =>
      cases x with
      | none => exact absurd rfl hx
      | some c =>
        have b1 := b.1.toNat_lt
        have b2 := b.2.toNat_lt
        have c1 := c.1.toNat_lt
        have c2 := c.2.toNat_lt
        have e := pad_inj (by simp only [Time.getUint16]; omega) (by simp only [Time.getUint16]; omega) e
        simp only [Time.getUint16] at e
        have h1 : b.1 = c.1 := UInt8.toNat_inj.1 (by omega)
        have h2 : b.2 = c.2 := UInt8.toNat_inj.1 (by omega)
        rw [Prod.ext h1 h2]

example : clock id (Time.ToD [.str b!"1730"]) (Time.ToD [.time false 17 30]) = true ∧
    clock id (Time.ToD [.str b!"1730"]) (Time.ToD [.str b!"1731"]) = false := by decide +kernel

/-! ## Addresses, host names, distinguished names -/

/-- Address lists made by `IP` or from nil, and any calls of `Set` after this. -/
inductive AddressesMade : Net.IPAddr → Prop
  | null : AddressesMade none
  | ip (args) : AddressesMade (Net.IP args)
  | set (r args) : AddressesMade r → AddressesMade (Net.IPAddr.set r args)

private theorem made_like {r : Net.IPAddr} (h : AddressesMade r) :
    ∀ a ∈ r.getD [], AddressLike a := by
  have step : ∀ (l args : List Str), (∀ a ∈ l, AddressLike a) → ∀ a ∈ Net.ipSet l args, AddressLike a := by
    intro l args
    induction args generalizing l with
    | nil => exact fun h => h
    | cons b t ih =>
      intro h
      simp only [Net.ipSet]
      split
      · split
        · rename_i _ hv
          refine ih _ fun a ha => ?_
          rcases List.mem_append.1 ha with ha | ha
          · exact h a ha
          · rw [List.mem_singleton.1 ha]; exact (Net.isValidIP_iff b).1 hv
        · exact ih _ h
      · exact ih _ h
  induction h with
  | null => simp
  | ip args => exact step [] args (by simp)
  | set r args _ ih => exact step _ args ih

private theorem like_no_comma {a : Str} (h : AddressLike a) : (44 : Byte) ∉ a ∧ a ≠ [] := by
  obtain ⟨hl, h | h⟩ := h
  · exact ⟨fun hm => absurd (h 44 hm) (by decide), by rintro rfl; simp at hl⟩
  · exact ⟨fun hm => absurd (h 44 hm) (by decide), by rintro rfl; simp at hl⟩

/-- **C87** for address lists that hold an address: they compare equal exactly if
they hold the same addresses in the same order. -/
theorem C87_addresses :
    Faithful addresses (fun r => AddressesMade r ∧ Net.IPAddr.valid r = true) (· = ·) := by
  have some_of : ∀ r : Net.IPAddr, AddressesMade r → r.valid = true → ∃ l, r = some l ∧ l ≠ [] ∧
      (∀ a ∈ l, (44 : Byte) ∉ a ∧ a ≠ []) := by
    intro r h hv
    have hl := made_like h
    match r with
    | none => exact absurd hv (by decide)
    | some [] => exact absurd hv (by decide)
    | some (a :: l) => exact ⟨_, rfl, by simp, fun b hb => like_no_comma (hl b hb)⟩
  refine faithful_of (fun r => Option.isNone r) Net.IPAddr.string _ _ ?_ ?_
  · rintro r ⟨h, hv⟩
    obtain ⟨l, rfl, hne, hl⟩ := some_of r h hv
    refine ⟨rfl, fun he => ?_⟩
    obtain ⟨a, t, rfl⟩ := List.exists_cons_of_ne_nil hne
    have hs := Str.split1_join (c := 44) hne (fun s hs => (hl s hs).1)
    have : Str.join [44] (a :: t) = [] := he
    rw [this] at hs
    have : [[]] = a :: t := hs
    exact (hl a (by simp)).2 (List.cons.inj this).1.symm
  · rintro r x ⟨h, hv⟩ ⟨h', hv'⟩
    obtain ⟨l, rfl, hne, hl⟩ := some_of r h hv
    obtain ⟨k, rfl, hne', hl'⟩ := some_of x h' hv'
    refine ⟨fun e => ?_, fun e => by rw [e]⟩
    have e : Str.join [44] l = Str.join [44] k := e
    have e1 := Str.split1_join (c := 44) hne (fun s hs => (hl s hs).1)
    rw [e, Str.split1_join (c := 44) hne' (fun s hs => (hl' s hs).1)] at e1
    rw [e1]

example : addresses id (Net.IP [b!"10.0.0.1", b!"10.0.0.1"]) (Net.IP [b!"10.0.0.1"]) = true ∧
    addresses id (Net.IP [b!"10.0.0.1"]) (Net.IP [b!"10.0.0.2"]) = false := by decide +kernel

private theorem label_no_dot {s : Str} (h : IsLabel LatinLetter s) : (46 : Byte) ∉ s ∧ s ≠ [] := by
  refine ⟨fun hm => ?_, by rintro rfl; exact absurd h.1 (by decide)⟩
  exact absurd (h.2.2.1 46 hm) (by decide)

/-- **C87** for valid host names: they compare equal exactly if they have the same
labels. -/
theorem C87_hosts :
    Faithful host (fun r => Net.Reachable r ∧ Net.FQDN.valid r = true) (· = ·) := by
  have some_of : ∀ r : Net.FQDN, Net.Reachable r → r.valid = true → ∃ l, r = some l ∧ l ≠ [] ∧
      (∀ a ∈ l, (46 : Byte) ∉ a ∧ a ≠ []) := by
    intro r h hv
    have hl := Net.C24_labels_partial r h
    match r with
    | none => exact absurd hv (by decide)
    | some [] => exact absurd hv (by decide)
    | some (a :: l) => exact ⟨_, rfl, by simp, fun b hb => label_no_dot (hl b hb)⟩
  have text : ∀ l, Net.FQDN.valid (some l) = true → Net.FQDN.string (some l) = Str.join [46] l := by
    intro l hv
    rw [Net.FQDN.string, hv]; rfl
  refine faithful_of (fun r => Option.isNone r) Net.FQDN.string _ _ ?_ ?_
  · rintro r ⟨h, hv⟩
    obtain ⟨l, rfl, hne, hl⟩ := some_of r h hv
    refine ⟨rfl, fun he => ?_⟩
    obtain ⟨a, t, rfl⟩ := List.exists_cons_of_ne_nil hne
    have hs := Str.split1_join (c := 46) hne (fun s hs => (hl s hs).1)
    rw [← text _ hv, he] at hs
    have : [[]] = a :: t := hs
    exact (hl a (by simp)).2 (List.cons.inj this).1.symm
  · rintro r x ⟨h, hv⟩ ⟨h', hv'⟩
    obtain ⟨l, rfl, hne, hl⟩ := some_of r h hv
    obtain ⟨k, rfl, hne', hl'⟩ := some_of x h' hv'
    refine ⟨fun e => ?_, fun e => by rw [e]⟩
    rw [text _ hv, text _ hv'] at e
    have e1 := Str.split1_join (c := 46) hne (fun s hs => (hl s hs).1)
    rw [e, Str.split1_join (c := 46) hne' (fun s hs => (hl' s hs).1)] at e1
    rw [e1]

example : host id (Net.DNS [b!"www.example", b!"com"]) (Net.DNS [b!"www", b!"example.com"]) = true ∧
    host id (Net.DNS [b!"www.example.com"]) (Net.DNS [b!"example.com"]) = false := by decide +kernel

/-- **C87** for distinguished names that are set: they compare equal exactly if the
names are the same.  The keyword is no part of the comparison, here or in the
documentation. -/
theorem C87_names :
    Faithful bindDN (fun r => DN.isZero r = false) (fun r x => r.map (·.text) = x.map (·.text)) ∧
    Faithful targetDN (fun r => DN.isZero r = false) (fun r x => r.map (·.text) = x.map (·.text)) := by
  have both : ∀ bad : Str, Faithful (fun sha (r x : Option DN.DName) => compareHashInstance sha
      (seen r.isNone (DN.stringWith bad r)) (seen x.isNone (DN.stringWith bad x)))
      (fun r => DN.isZero r = false) (fun r x => r.map (·.text) = x.map (·.text)) := by
    intro bad
    refine faithful_of (fun r => Option.isNone r) (DN.stringWith bad) _ _ ?_ ?_
    · intro r hr
      match r with
      | none => exact absurd hr (by decide)
      | some ⟨kw, none⟩ => exact absurd hr (by simp [DN.isZero])
      | some ⟨kw, some t⟩ => exact ⟨rfl, by simp [DN.stringWith, Levels.LocalScheme]⟩
    · intro r x hr hx
      match r, x with
      | none, _ => exact absurd hr (by decide)
      | some ⟨kw, none⟩, _ => exact absurd hr (by simp [DN.isZero])
      | _, none => exact absurd hx (by decide)
      | _, some ⟨kw, none⟩ => exact absurd hx (by simp [DN.isZero])
      | some ⟨kw, some t⟩, some ⟨kw', some t'⟩ => simp [DN.stringWith]
  exact ⟨both DN.badBDN, both DN.badTDN⟩

example : bindDN id (DN.UDN b!"ldap:///uid=a,o=b") (DN.UDN b!"uid=a,o=b") = true ∧
    bindDN id (DN.UDN b!"uid=a,o=b") (DN.UDN b!"uid=a,o=c") = false := by decide +kernel

end Verif.Compare
