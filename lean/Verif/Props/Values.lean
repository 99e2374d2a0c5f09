import Verif.Spec.Values
import Verif.Props.BindValues

/-!
# C98: what a value prints is read as this value
-/

namespace Verif.Back
open Verif Verif.Spec Verif.Bind Verif.Rules Verif.Attr Verif.Misc Verif.DNList

theorem inside_plain {t : Str} (h : Plain t) (hq : ∀ c ∈ t, isQuote c = false) : Inside t t := by
  refine ⟨t, (condenses_iff _ _).2 ?_, ?_⟩
  · have := condense_frame (l := []) (u := t) (r := []) .nil .nil h
    simpa using this
  · by_cases hl : t.length ≤ 2
    · exact Or.inl ⟨hl, rfl⟩
    · refine Or.inr ⟨by omega, [], [], by simp, .absent, .absent, ?_, ?_⟩
      · intro _ c hc h
        rw [quote?_iff, hq c (List.mem_of_mem_head? hc)] at h; cases h
      · intro _ c hc h
        rw [quote?_iff, hq c (List.mem_of_getLast? hc)] at h; cases h

/-! ## The texts of pairs and addresses -/

theorem soundPair_text {key : BindKeyword} {A : ABTV} {t : Str} (h : SoundPair key A t) :
    A.string = some t ∧ Uri.PairText key t A := by
  cases h with
  | @type p b hp =>
    refine ⟨?_, .type hp (by cases b <;> decide)⟩
    simp only [ABTV.string, Cell.string, slotString, AttributeType.string]
    rw [if_neg (by cases b <;> decide), show BindType.string (btConst b) = b.name by cases b <;> decide]
    simp
  | @value p q hp hq h =>
    refine ⟨?_, .value hp hq h⟩
    simp [ABTV.string, Cell.string, slotString, AttributeType.string, h]

theorem standard_const {k : Scope} (h : k ≠ .subordinate) :
    Str.lower (SearchScope.const k).standard ∈ k.spellings := by
  revert h; cases k <;> decide +kernel

theorem uriText_of {key : BindKeyword} {x : Str} {u : Uri.Uri} (h : Uri.TextOf key x u) (hm : (63 : Byte) ∈ x) :
    Uri.TextOf key x u ∧ UriText x := by
  refine ⟨h, ?_, hm⟩
  obtain ⟨n, parts, he, -⟩ := h
  exact ⟨_, he⟩

theorem soundPair_shape {key : BindKeyword} {A : ABTV} {t : Str} (h : SoundPair key A t) (hk : key ≠ 0) :
    A.isZero = false ∧ (35 : Byte) ∈ t := by
  cases h <;> exact ⟨by simpa [ABTV.isZero] using hk, by simp⟩

theorem soundUri_text {key : BindKeyword} {u : Uri.Uri} (h : SoundUri key u) (hkey : key ≠ 0) :
    Uri.TextOf key u.string u ∧ UriText u.string := by
  obtain ⟨⟨d, hd, hne, hq, hs⟩, h⟩ := h
  have hN : Uri.Names u d := ⟨_, hd⟩
  have hnp : Uri.NamePart d u.dn := Or.inr ⟨hne, d, Or.inr ⟨rfl, hs⟩, hd⟩
  rcases h with ⟨f, names, k, hf, hfn, hfq, ha, hnm, hsc, hk, hv⟩ | ⟨t, hp, ht, hf, ha, hsc⟩ | ⟨k, hf, hv, ha, hsc, hk⟩
  · have e := Uri.text_with_filter hN (names := names) ⟨by rw [ha], hnm⟩ hf hfn
    have h63 : (63 : Byte) ∉ Str.join b!"," names :=
      Uri.names_avoid hnm (by decide) (by decide) (by decide) (by decide) (by decide) (by decide)
    refine uriText_of ⟨d, [Str.join b!"," names, u.scope.standard, f], ?_, ?_, hnp, ?_, ?_, ?_⟩ ?_
    · rw [e]; simp [Str.join]
    · intro p hp
      simp only [List.mem_cons, List.not_mem_nil, or_false] at hp
      rcases hp with rfl | rfl | rfl | rfl
      · exact hq
      · exact h63
      · exact Uri.standard_no_mark _
      · exact hfq
    · by_cases hn : names = []
      · subst hn; exact Or.inl ⟨Or.inr rfl, hv, ha⟩
      · refine Or.inr (Or.inr ⟨_, names, rfl, fun e => hn ((Uri.join_eq_nil hnm).1 e), ?_, hv, ha, ?_⟩)
        · exact Uri.names_avoid hnm (by decide) (by decide) (by decide) (by decide) (by decide) (by decide)
        · rw [Uri.dropSpaces_id (Uri.names_avoid hnm (by decide) (by decide) (by decide) (by decide) (by decide) (by decide)),
            Str.split1_join hn fun s hs =>
              Uri.attrName_avoids (hnm s hs) (by decide) (by decide) (by decide) (by decide) (by decide)]
          clear e h63 ha hn
          induction names with
          | nil => exact .nil
          | cons n l ih => exact .take ⟨rfl, hnm n (by simp)⟩ (ih fun s hs => hnm s (by simp [hs]))
    · exact Or.inl ⟨_, k, rfl, by rw [hsc]; exact standard_const hk, hsc⟩
    · rw [hf]; rfl
    · rw [e]; simp
  · obtain ⟨e1, e2⟩ := soundPair_text hp
    have hz : u.avbt.isZero = false := (soundPair_shape hp hkey).1
    have e := Uri.text_pair hN (by rw [hf]; rfl) hz
    rw [e1] at e
    have h35 : (35 : Byte) ∈ t := (soundPair_shape hp hkey).2
    refine uriText_of ⟨d, [t], ?_, ?_, hnp, ?_, ?_, ?_⟩ ?_
    · rw [e]; simp [Str.join]
    · intro p hp
      simp only [List.mem_cons, List.not_mem_nil, or_false] at hp
      rcases hp with rfl | rfl
      · exact hq
      · exact ht
    · exact Or.inr (Or.inl ⟨t, rfl, h35, e2, ha⟩)
    · exact Or.inr ⟨fun _ h => by simp at h, hsc⟩
    · rw [hf]; rfl
    · rw [e]; simp
  · have e := Uri.text_plain hN (by rw [hf]; rfl) (by rw [hv]; rfl)
    refine uriText_of ⟨d, [[], u.scope.standard, []], ?_, ?_, hnp, ?_, ?_, ?_⟩ ?_
    · rw [e]; simp [Str.join]
    · intro p hp
      simp only [List.mem_cons, List.not_mem_nil, or_false] at hp
      rcases hp with rfl | rfl | rfl | rfl
      · exact hq
      · simp
      · exact Uri.standard_no_mark _
      · simp
    · exact Or.inl ⟨Or.inr rfl, hv, ha⟩
    · exact Or.inl ⟨_, k, rfl, by rw [hsc]; exact standard_const hk, hsc⟩
    · rw [hf]; rfl
    · rw [e]; simp

/-! ## Names -/

theorem solid_not_spaces {c : Byte} (hc : Solid c) {l : Str} (h : Spaces l) : c ∉ l := by
  induction h with
  | nil => simp
  | cons a s ha _ ih =>
    intro hm
    rcases List.mem_append.1 hm with hm | hm
    · obtain ⟨h1, h2⟩ := hc
      cases ha with
      | ascii b hb =>
        simp only [List.mem_cons, List.not_mem_nil, or_false] at hm
        subst hm
        rcases hb with rfl | rfl | rfl | rfl | rfl | rfl <;> exact absurd h2 (by decide)
      | two b hb =>
        simp only [List.mem_cons, List.not_mem_nil, or_false] at hm
        rcases hm with rfl | rfl
        · exact absurd h1 (by decide)
        · rcases hb with rfl | rfl <;> exact absurd h1 (by decide)
      | general b hb =>
        simp only [List.mem_cons, List.not_mem_nil, or_false] at hm
        rcases hm with rfl | rfl | rfl
        · exact absurd h1 (by decide)
        · exact absurd h1 (by decide)
        · have : ∀ b : Byte, (0x80 ≤ b ∧ b ≤ 0x8A ∨ b = 0xA8 ∨ b = 0xA9 ∨ b = 0xAF) → ¬ b < 128 := by decide +kernel
          exact this _ hb h1
      | ogham | math | ideographic =>
        simp only [List.mem_cons, List.not_mem_nil, or_false] at hm
        rcases hm with rfl | rfl | rfl <;> exact absurd h1 (by decide)
    · exact ih hm

theorem trim_keeps {u : Str} (hu : Plain u) (hn : u ≠ []) (x : Str) : ∃ y, Str.trimSpace (u ++ x) = u ++ y := by
  obtain ⟨l, r, hl, hr, he⟩ := trimSpace_split (u ++ x)
  have hl0 : l = [] := by
    cases l with
    | nil => rfl
    | cons c l =>
      cases u with
      | nil => exact absurd rfl hn
      | cons a u =>
        simp only [List.cons_append, List.cons.injEq] at he
        exact absurd (by simp [he.1]) (solid_not_spaces (solid_of_plain hu a (by simp)) hl)
  rw [hl0, List.nil_append] at he
  rcases List.append_eq_append_iff.1 he with ⟨y, hy, -⟩ | ⟨c, hc, hc'⟩
  · exact ⟨y, hy⟩
  · have : c = [] := by
      cases c with
      | nil => rfl
      | cons b c =>
        refine absurd (show b ∈ r from ?_) (solid_not_spaces (solid_of_plain hu b (by rw [hc]; simp)) hr)
        rw [hc']; simp
    rw [this, List.append_nil] at hc
    exact ⟨[], by rw [List.append_nil]; exact hc.symm⟩

theorem loop_keeps {u : Str} (hu : Plain u) (x : Str) (b : Bool) : ∃ y, condenseLoop b (u ++ x) = u ++ y := by
  induction u generalizing b with
  | nil => exact ⟨_, rfl⟩
  | cons a u ih =>
    obtain ⟨h1, h2⟩ := hu a (by simp)
    obtain ⟨y, hy⟩ := ih (fun c hc => hu c (by simp [hc])) false
    refine ⟨y, ?_⟩
    have : ∀ a : Byte, 33 ≤ a → a ≤ 126 → ¬ (a = 9 ∨ a = 10 ∨ a = 32) ∧ a < 128 := by decide +kernel
    obtain ⟨h3, h4⟩ := this a h1 h2
    rw [List.cons_append, condenseLoop, if_neg h3, encodeByte_plain h4, hy]; rfl

theorem condense_keeps {u : Str} (hu : Plain u) (hn : u ≠ []) (x : Str) : ∃ y, condenseWHSP (u ++ x) = u ++ y := by
  obtain ⟨y, hy⟩ := trim_keeps hu hn x
  rw [condenseWHSP, hy, List.map_append, map_nl_plain hu]
  obtain ⟨z, hz⟩ := loop_keeps hu (y.map fun c => if c = 10 then 32 else c) false
  rw [hz]
  exact trim_keeps hu hn z

theorem scheme_plain : Plain scheme := by decide

theorem inside_scheme (w : Str) : ∃ t, Inside (scheme ++ w) t ∧ 3 ≤ t.length := by
  obtain ⟨y, hy⟩ := condense_keeps scheme_plain (by decide) w
  refine ⟨_, inside_of _, ?_⟩
  obtain ⟨p, q, hp, hq, he⟩ := unquote_inv (condenseWHSP (scheme ++ w))
  have := congrArg List.length he
  rw [hy, List.length_append, List.length_append, List.length_append, show scheme.length = 8 from rfl, ← hy] at this
  have h1 : p.length ≤ 1 := by cases hp <;> decide
  have h2 : q.length ≤ 1 := by cases hq <;> decide
  omega

theorem pairKey_ne (l : List BindKeyword) : Uri.pairKey l ≠ 0 := by
  unfold Uri.pairKey; split <;> decide

theorem bkw_ne (k : BKw) : bkwConst k ≠ 0 := by cases k <;> decide

theorem soundEntry_taken {key : BindKeyword} {e : BEntry} (h : SoundEntry key e) :
    TakenEntry key e.string e ∧ ∃ w, e.string = scheme ++ w := by
  cases h with
  | @name w h hs hq hc =>
    refine ⟨Or.inr ⟨?_, _, w, w, hc, Or.inl rfl, h, hq, Or.inr ⟨rfl, hs⟩, rfl⟩, w, rfl⟩
    rintro ⟨-, hm⟩
    rcases List.mem_append.1 (show (63 : Byte) ∈ scheme ++ w from hm) with hm | hm
    · exact absurd hm (by decide)
    · exact hq hm
  | @address u h =>
    obtain ⟨h1, h2⟩ := soundUri_text h (pairKey_ne _)
    exact ⟨Or.inl ⟨h2, u, h1, rfl⟩, h2.1⟩

/-- The entry of a list with this text. -/
def entryOf (es : List BEntry) (v : Str) : BEntry := (es.find? fun e => e.string == v).getD (.dn none)

theorem entryOf_map {F : EqualFold} {es : List BEntry} (hd : Distinct (fun a b => F.eq a.string b.string) es) :
    (es.map BEntry.string).map (entryOf es) = es := by
  have : ∀ e ∈ es, entryOf es e.string = e := by
    intro e he
    cases hf : es.find? fun x => x.string == e.string with
    | none =>
      have := List.find?_eq_none.1 hf e he
      simp at this
    | some x =>
      rw [entryOf, hf]
      have hx := List.find?_some hf
      have hm := List.mem_of_find?_eq_some hf
      have hx : x.string = e.string := by simpa using hx
      obtain ⟨i, hi⟩ := List.mem_iff_getElem?.1 hm
      obtain ⟨j, hj⟩ := List.mem_iff_getElem?.1 he
      rcases Nat.lt_trichotomy i j with h | h | h
      · have := hd i j x e h hi hj
        simp only [hx, F.refl] at this; cases this
      · subst h; rw [hi] at hj; exact Option.some.inj hj
      · have := hd j i e x h hj hi
        simp only [hx, F.refl] at this; cases this
  rw [List.map_map]
  conv => rhs; rw [← List.map_id es]
  exact List.map_congr_left this

/-! ## All values -/

theorem address_plain {l : List Str} (h : ∀ a ∈ l, AddressLike a) :
    Plain (Str.join b!"," l) ∧ ∀ c ∈ Str.join b!"," l, isQuote c = false := by
  have h4 : ∀ c ∈ v4Chars, (33 ≤ c ∧ c ≤ 126) ∧ isQuote c = false := by decide +kernel
  have h6 : ∀ c ∈ v6Chars, (33 ≤ c ∧ c ≤ 126) ∧ isQuote c = false := by decide +kernel
  have : ∀ c ∈ Str.join b!"," l, (33 ≤ c ∧ c ≤ 126) ∧ isQuote c = false := by
    intro c hc
    rcases Uri.join_mem hc with hc | ⟨a, ha, hc⟩
    · simp only [List.mem_cons, List.not_mem_nil, or_false] at hc; subst hc; decide
    · rcases (h a ha).2 with h | h
      · exact h4 c (h c hc)
      · exact h6 c (h c hc)
  exact ⟨fun c hc => (this c hc).1, fun c hc => (this c hc).2⟩

theorem host_plain {l : List Str} (h : ∀ p ∈ l, IsLabel AsciiLetter p) :
    Plain (Str.join b!"." l) ∧ ∀ c ∈ Str.join b!"." l, isQuote c = false := by
  have hb : ∀ c : Byte, (AsciiLetter c ∨ (48 ≤ c ∧ c ≤ 57) ∨ c = 42 ∨ c = 45) →
      (33 ≤ c ∧ c ≤ 126) ∧ isQuote c = false := by decide +kernel
  have : ∀ c ∈ Str.join b!"." l, (33 ≤ c ∧ c ≤ 126) ∧ isQuote c = false := by
    intro c hc
    rcases Uri.join_mem hc with hc | ⟨a, ha, hc⟩
    · simp only [List.mem_cons, List.not_mem_nil, or_false] at hc; subst hc; decide
    · exact hb c ((h a ha).2.2.1 c hc)
  exact ⟨fun c hc => (this c hc).1, fun c hc => (this c hc).2⟩

theorem pair_begins {p q z w : Str} (h35 : (35 : Byte) ∉ z) {c : Byte} (hc : c ∈ z)
    (h : c ∉ p) : p ++ b!"#" ++ q ≠ z ++ w := by
  intro e
  rw [List.append_assoc] at e
  rcases List.append_eq_append_iff.1 e with ⟨a, ha, hb⟩ | ⟨a, ha, -⟩
  · cases a with
    | nil => rw [List.append_nil] at ha; exact h (ha ▸ hc)
    | cons x a =>
      simp only [List.cons_append, List.nil_append, List.cons.injEq] at hb
      exact h35 (by rw [ha, hb.1]; simp)
  · exact h (by rw [ha]; simp [hc])

theorem soundPair_begins {key : BindKeyword} {A : ABTV} {t : Str} (h : SoundPair key A t) :
    (∀ w, t ≠ scheme ++ w) ∧ ∀ w, t ≠ b!"parent[" ++ w := by
  have : ∀ p q : Str, AttrName p → (∀ w, p ++ b!"#" ++ q ≠ scheme ++ w) ∧ ∀ w, p ++ b!"#" ++ q ≠ b!"parent[" ++ w :=
    fun p q hp => ⟨fun w => pair_begins (by decide) (c := 58) (by decide)
        (Uri.attrName_avoids hp (by decide) (by decide) (by decide) (by decide) (by decide)),
      fun w => pair_begins (by decide) (c := 91) (by decide)
        (Uri.attrName_avoids hp (by decide) (by decide) (by decide) (by decide) (by decide))⟩
  cases h with
  | type b hp => exact this _ _ hp
  | value hp _ _ => exact this _ _ hp

theorem clock_text {h m : Nat} (hc : Clock h m) : Time.padDec 4 (100 * h + m) = clockText h m := by
  rcases hc with ⟨h1, h2⟩ | ⟨rfl, rfl⟩
  · rw [Time.padDec4 (by omega), Time.clockText_digits,
      show (100 * h + m) / 1000 = h / 10 by omega, show (100 * h + m) / 100 % 10 = h % 10 by omega,
      show (100 * h + m) / 10 % 10 = m / 10 by omega, show (100 * h + m) % 10 = m % 10 by omega]
  · decide +kernel

theorem clock_plain {h m : Nat} (hc : Clock h m) : Plain (clockText h m) ∧
    ∀ c ∈ clockText h m, isQuote c = false := by
  have ht : ∀ n : Fin 100, ∀ c ∈ twoDigits n.1, (33 ≤ c ∧ c ≤ 126) ∧ isQuote c = false := by decide +kernel
  have hh : h < 100 := by rcases hc with ⟨h1, h2⟩ | ⟨rfl, rfl⟩ <;> omega
  have hm : m < 100 := by rcases hc with ⟨h1, h2⟩ | ⟨rfl, rfl⟩ <;> omega
  have : ∀ c ∈ clockText h m, (33 ≤ c ∧ c ≤ 126) ∧ isQuote c = false := by
    intro c hc
    rcases List.mem_append.1 hc with hc | hc
    · exact ht ⟨h, hh⟩ c hc
    · exact ht ⟨m, hm⟩ c hc
  exact ⟨fun c hc => (this c hc).1, fun c hc => (this c hc).2⟩

theorem days_plain (held : Weekday → Bool) : Plain (daysText held) ∧ ∀ c ∈ daysText held, isQuote c = false := by
  have hb : ∀ d : Weekday, ∀ c ∈ d.name, (33 ≤ c ∧ c ≤ 126) ∧ isQuote c = false := by
    intro d; cases d <;> decide +kernel
  have : ∀ c ∈ daysText held, (33 ≤ c ∧ c ≤ 126) ∧ isQuote c = false := by
    intro c hc
    rcases Uri.join_mem hc with hc | ⟨a, ha, hc⟩
    · simp only [List.mem_cons, List.not_mem_nil, or_false] at hc; subst hc; decide
    · obtain ⟨d, -, rfl⟩ := List.mem_map.1 ha
      exact hb d c hc
  exact ⟨fun c hc => (this c hc).1, fun c hc => (this c hc).2⟩

theorem factor_plain (n : Nat) : Plain (Str.ofNat n) ∧ ∀ c ∈ Str.ofNat n, isQuote c = false := by
  have : ∀ c : Byte, 48 ≤ c ∧ c ≤ 57 → (33 ≤ c ∧ c ≤ 126) ∧ isQuote c = false := by decide +kernel
  exact ⟨fun c hc => (this c (Str.ofNat_digits n c hc)).1, fun c hc => (this c (Str.ofNat_digits n c hc)).2⟩

theorem method_text {names : List (Str × Sec.AuthenticationMethod)} (hN : names.Perm Sec.authNames) (low : Bool)
    (a : Auth) : Str.eqFold a.name (Sec.authString names low (Sec.authConst a)) = true ∧
      Inside (Sec.authString names low (Sec.authConst a)) (Sec.authString names low (Sec.authConst a)) := by
  rw [Sec.authString_hit (fun e he => Sec.names_cov (hN.mem_iff.1 he)) low (hN.mem_iff.2 (Sec.names_mem a)), inside_iff]
  cases low <;> cases a <;> decide +kernel

/-- The texts of a sound value are this value. -/
theorem sound_value {F : EqualFold} {P : Printing} (hN : P.names.Perm Sec.authNames) {k : BKw} {x : BExpr}
    (h : Sound F k x) : BindValue F k (x.texts P) x := by
  cases h with
  | @names k es hk hne he hd =>
    have hm := entryOf_map hd
    cases es with
    | nil => exact absurd rfl hne
    | cons e l =>
      have ht : ∀ x ∈ (e :: l).map BEntry.string, TakenEntry (bkwConst k) x (entryOf (e :: l) x) := by
        intro x hx
        obtain ⟨d, hd', rfl⟩ := List.mem_map.1 hx
        have : entryOf (e :: l) d.string = d := by
          rw [List.map_map] at hm
          have := (List.map_inj_left (g := id)).1 (by rw [hm, List.map_id]) d hd'
          exact this
        rw [this]
        exact (soundEntry_taken (he d hd')).1
      obtain ⟨w, hw⟩ := (soundEntry_taken (he e (by simp))).2
      obtain ⟨t, h1, h2⟩ := inside_scheme w
      rw [← hw] at h1
      have := BindValue.names (F := F) hk h1 h2 (entryOf (e :: l)) ht
      rw [← List.map_cons (f := BEntry.string), hm, firsts_distinct hd] at this
      exact this
  | @uri k u hk h hs => exact .uri hk hs (soundUri_text h (bkw_ne _)).1
  | @inherit k w A t hk h hn hw hs =>
    obtain ⟨h1, h2⟩ := soundPair_text h
    have hp : parseATBTV t [] = .ok A := (Uri.pair_iff rfl t A).2 h2
    obtain ⟨i, hi, rfl, hh, ht⟩ := Levels.C07_round_trip P.levels _ hn t A hp h1
    obtain ⟨w', A⟩ := i
    have hx := (Uri.C09_exact _ _).1 hi
    have e : w' = w := by
      obtain ⟨-, -, -, v, B, -, -, -, -, -, e, -, hz⟩ := hx
      cases e
      apply BitVec.eq_of_getLsbD_eq
      intro j hj
      by_cases hr : 1 ≤ j ∧ j ≤ 10
      · have e : j - 1 + 1 = j := by omega
        have := hh ⟨j - 1, by omega⟩
        rw [Levels.holds_bit _ _ _ (soundPair_shape h (by decide)).1] at this
        simpa only [e] using this
      · rw [hw j hr, hz j hr]
    subst e
    rw [BExpr.texts, ht]
    exact .inherit hk hs ⟨_, by rw [inheritText]; simp only [List.append_assoc]; rfl⟩ hx
  | @pair k A t hk h hs =>
    obtain ⟨h1, h2⟩ := soundPair_text h
    rw [BExpr.texts, h1]
    obtain ⟨h3, h4⟩ := soundPair_begins h
    exact .pair hk hs h3 h4 h2
  | @address l hne hd h =>
    obtain ⟨h1, h2⟩ := address_plain h
    have hsp : Str.split1 44 (Str.join b!"," l) = l := by
      refine Str.split1_join hne fun s hs hc => ?_
      rcases (h s hs).2 with h | h
      · exact absurd (h _ hc) (by decide)
      · exact absurd (h _ hc) (by decide)
    have := BindValue.address (F := F) (inside_plain h1 h2) (by rw [hsp]; exact hd) (by rw [hsp]; exact h)
    rw [hsp] at this
    exact this
  | @host l h2 h15 h63 h =>
    obtain ⟨h1, hq⟩ := host_plain h
    have hsp : Str.split1 46 (Str.join b!"." l) = l := by
      refine Str.split1_join (by intro e; subst e; simp at h2) fun s hs hc => ?_
      exact absurd ((h s hs).2.2.1 _ hc) (by decide)
    have := BindValue.host (F := F) (inside_plain h1 hq) (by rw [hsp]; exact h2) (by rw [hsp]; exact h15) h63
      (by
        rw [hsp]
        intro p hp
        obtain ⟨a, b, c, d⟩ := h p hp
        exact ⟨a, b, fun x hx => (c x hx).imp Or.inl id, d⟩)
    rw [hsp] at this
    rw [BExpr.texts, Net.FQDN.string, (Net.valid_iff l).2 ⟨h2, h15⟩]
    exact this
  | noHost => exact .noHost ((inside_iff _ _).2 (by decide +kernel))
  | @days w h0 hn =>
    have hr : Time.OnlyDays (some w) := by
      intro v hv; cases hv; exact h0
    obtain ⟨d, hd⟩ : ∃ d, Time.holds P.days (some w) d = true := by
      by_cases hx : ∃ d, Time.holds P.days (some w) d = true
      · exact hx
      · refine absurd ?_ hn
        have hx : ∀ d, w.getLsbD (Time.idx d) = false := fun d => by
          cases hb : w.getLsbD (Time.idx d) with
          | false => rfl
          | true => exact absurd ⟨d, by rw [Time.holds_bit]; exact hb⟩ hx
        apply BitVec.eq_of_getLsbD_eq
        intro i hi
        rw [BitVec.getLsbD_zero]
        match i, hi with
        | 0, _ => exact h0
        | 1, _ => exact hx .sun
        | 2, _ => exact hx .mon
        | 3, _ => exact hx .tue
        | 4, _ => exact hx .wed
        | 5, _ => exact hx .thu
        | 6, _ => exact hx .fri
        | 7, _ => exact hx .sat
        | i + 8, hi => omega
    have ht := Time.C11_text P.days (some w) hr d hd
    obtain ⟨hp, hq⟩ := days_plain (Time.holds P.days (some w))
    rw [← ht] at hp hq
    have hx := Time.C12_exact P.days _ _ (Time.C11_round_trip P.days (some w) hr d hd (Time.string P.days (some w)) (by
      rw [Uri.dropSpaces_id]
      intro h; exact absurd (hp _ h).1 (by decide)))
    refine .days (inside_plain hp hq) hx.1 (fun d => ?_) h0
    have := hx.2.2.2 d
    rw [Time.holds_bit] at this
    cases d <;> exact this
  | @time h m a b hc hn =>
    have e : BExpr.texts P (.tod (some (a, b))) = [clockText h m] := by
      rw [BExpr.texts, Time.TimeOfDay.string, Time.getUint16, hn, clock_text hc]
    rw [e]
    exact .time hc (inside_plain (clock_plain hc).1 (clock_plain hc).2) hn
  | method a =>
    obtain ⟨h1, h2⟩ := method_text hN P.low a
    exact .method h2 h1
  | factor o =>
    cases o with
    | none => exact .noFactor ((inside_iff _ _).2 (by decide +kernel))
    | some b => exact .factor (inside_plain (factor_plain _).1 (factor_plain _).2)

theorem valueReadB_unique {env : Env} {r : BRule} {x y : BExpr} (hx : ValueReadB env r x) (hy : ValueReadB env r y) :
    x = y := by
  obtain ⟨a, ha, rfl⟩ := hx
  obtain ⟨b, hb, rfl⟩ := hy
  rw [Reads, ha] at hb
  cases hb; rfl

/-- **C98** as stated, for bind rules: the texts of a value that was read are read again, and what
is read has the same texts. -/
def ClaimBack : Prop :=
  ∀ (F : EqualFold) (env : Env) (P : Printing), Proper env F → P.names.Perm Sec.authNames →
    ∀ (r : BRule) (k : BKw) (style : Int) (vs : List Str) (x : BExpr), RawBind r k style vs → ValueReadB env r x →
      ∀ (q : BRule) (style' : Int), RawBind q k style' (x.texts P) → ∃ y, ValueReadB env q y ∧ y.texts P = x.texts P

/-- A way to print. -/
def plainPrinting : Printing := ⟨.anyRef 16, .anyRef 8, Sec.authNames, true⟩

/-- The texts of the value of a rule. -/
def readTexts (P : Printing) (env : Env) (r : BRule) : Option (List Str) :=
  match r.assertValue env with
  | .ok r' => some (r'.ex.texts P)
  | _ => none

theorem readTexts_of {P : Printing} {env : Env} {r : BRule} {ts : List Str} (h : readTexts P env r = some ts) :
    ∃ x, ValueReadB env r x ∧ x.texts P = ts := by
  unfold readTexts at h
  split at h
  · next r' hr => cases h; exact ⟨_, ⟨r', hr, rfl⟩, rfl⟩
  · cases h

theorem readTexts_eq {P : Printing} {env : Env} {r : BRule} {y : BExpr} (h : ValueReadB env r y) :
    readTexts P env r = some (y.texts P) := by
  obtain ⟨r', hr, rfl⟩ := h
  rw [readTexts, hr]

/-- What refutes `ClaimBack`: a text that is read as a value with one text, which is read as a
value with another text or not read. -/
theorem claim_false {k : BKw} {v w : Str} (h : readTexts plainPrinting plainEnv (rawRule k.name Eq' v) = some [w])
    (h' : readTexts plainPrinting plainEnv (rawRule k.name Eq' w) ≠ some [w]) : ¬ ClaimBack := by
  intro hc
  obtain ⟨x, hx, hw⟩ := readTexts_of h
  have hk : Str.eqFold k.name k.name = true := by rw [eqFold_iff]
  obtain ⟨y, hy, e⟩ := hc .ref plainEnv plainPrinting plain_proper (.refl _) (rawRule k.name Eq' v) k 0 [v] x ⟨hk, rfl⟩ hx
    (rawRule k.name Eq' w) 0 ⟨hk, by rw [hw]; rfl⟩
  apply h'
  rw [readTexts_eq hy, e, hw]

/-- **C98** fails: the letter é in a name gets longer with every reading. -/
theorem C98_counterexample : ¬ ClaimBack :=
  claim_false (k := .userdn) (v := b!"ldap:///cn=" ++ [0xC3, 0xA9]) (w := b!"ldap:///cn=" ++ [0xC3, 0x83, 0xC2, 0xA9])
    (by decide +kernel) (by decide +kernel)

/-- **C98** fails also in ASCII: the text of a name that was read behind two schemes is too short
to be read, and the quotation marks at the end of a value are taken away one by one. -/
theorem C98_ascii_counterexample :
    readTexts plainPrinting plainEnv (rawRule b!"userdn" Eq' b!"ldap:///ldap:///x") = some [b!"ldap:///x"] ∧
    readTexts plainPrinting plainEnv (rawRule b!"userdn" Eq' b!"ldap:///x") = none ∧
    readTexts plainPrinting plainEnv (rawRule b!"userattr" Eq' b!"cn#x''") = some [b!"cn#x'"] ∧
    readTexts plainPrinting plainEnv (rawRule b!"userattr" Eq' b!"cn#x'") = some [b!"cn#x"] := by
  decide +kernel

/-- **C98**, for bind rules and sound values: the texts of the value are read as this value and as
no other, whatever the quotation style, the letter case of the keyword and the settings.  Missing:
values that are not sound, see `C98_counterexample`. -/
theorem C98_bind_partial (F : EqualFold) (env : Env) (hP : Proper env F) (P : Printing)
    (hN : P.names.Perm Sec.authNames) (k : BKw) (x : BExpr) (h : Sound F k x) (q : BRule) (style : Int)
    (hq : RawBind q k style (x.texts P)) (y : BExpr) : ValueReadB env q y ↔ y = x := by
  have hx := (C84_value F env hP q k style _ hq x).2 (sound_value hN h)
  exact ⟨fun hy => valueReadB_unique hy hx, fun e => e ▸ hx⟩

example : Sound .ref .ip (.ip (some [b!"10.0.*", b!"::1"])) := .address (by simp) (by decide) (by decide)
example : Sound .ref .dayofweek (.dow (some 0x22#8)) := .days (by decide) (by decide)
example : Sound .ref .userdn (.dns ⟨BindUDN, [.dn (some ⟨BindUDN, some b!"cn=x,o=y"⟩)]⟩) := by
  refine .names (k := .userdn) rfl (by simp) ?_ ?_
  · intro e he
    simp only [List.mem_singleton] at he; subst he
    refine .name ⟨by decide, Or.inl (by decide)⟩ ?_ (by decide) ((condenses_iff _ _).2 (by decide +kernel))
    intro y e
    have := congrArg List.head? e
    revert this; simp [scheme]
  · intro i j a b hij ha hb
    have := (List.getElem?_eq_some_iff.1 hb).1
    simp at this; omega
example : Sound .ref .userattr (.pair ⟨BindUAT, some ⟨some (some b!"cn"), .av (some b!"x")⟩⟩) := by
  refine .pair (k := .userattr) (t := b!"cn#x") rfl (.value (p := b!"cn") (q := b!"x") ?_ ?_ (by simp)) ((inside_iff _ _).2 (by decide +kernel))
  · exact Or.inl ⟨⟨99, _, rfl, by decide +kernel⟩, ⟨b!"c", 110, rfl, by decide +kernel⟩, by decide +kernel⟩
  · intro b; cases b <;> decide +kernel

end Verif.Back
