import Verif.Lemmas.Attr
import Verif.Lemmas.History
import Verif.Props.Attr

/-!
# C06 to C09: inheritance
-/

namespace Verif.Levels
open Verif Verif.Spec Verif.Misc Verif.Attr

/-- The exported constant of each level. -/
def const : Fin 10 → Level
  | 0 => Level0 | 1 => Level1 | 2 => Level2 | 3 => Level3 | 4 => Level4
  | 5 => Level5 | 6 => Level6 | 7 => Level7 | 8 => Level8 | 9 => Level9

/-- An argument mentions a level: by number, by decimal string, or as (part of) a
`Level` value such as `AllLevels`. -/
def Mentions (n : Fin 10) : Arg → Prop
  | .int i => i = n.1
  | .str s => s = numeral n
  | .level l => l &&& const n ≠ 0#16
  | .other => False

/-- A call of `Shift` or `Unshift`. -/
inductive Call where
  | shift (x : List Arg)
  | unshift (x : List Arg)

/-- The call, on the model. -/
def Call.run (r : Inheritance) : Call → Inheritance
  | .shift x => Levels.shift r x
  | .unshift x => Levels.unshift r x

/-- The call as single operations, one for each argument. -/
def Call.ops : Call → List (Op Arg)
  | .shift x => x.map fun a => ⟨true, a⟩
  | .unshift x => x.map fun a => ⟨false, a⟩

/-- The levels of an inheritance, through `Positive`. -/
def holds (S : Shifty 16) (r : Inheritance) (n : Fin 10) : Bool := positive S r (.level (const n))

private theorem const_eq (n : Fin 10) : const n = BitVec.twoPow 16 (n.1 + 1) := by
  revert n; decide

private theorem assertInt_bit (i : Int) (n : Fin 10) :
    (assertInt i).getLsbD (n.1 + 1) = true ↔ i = n.1 := by
  have hin : ∀ k : Fin 10, (assertInt (k.1 : Int)).getLsbD (n.1 + 1) = true ↔ (k.1 : Int) = n.1 := by
    revert n; decide
  by_cases h : 0 ≤ i ∧ i < 10
  · obtain ⟨k, rfl⟩ := Int.eq_ofNat_of_zero_le h.1
    exact hin ⟨k, by omega⟩
  · have : assertInt i = noLvl := by
      simp only [assertInt, levelMap, assertIntOn]
      repeat (rw [if_neg (by omega)])
    rw [this]
    constructor
    · simp [noLvl]
    · intro e; exact absurd (by omega) h

private theorem assertStr_bit (s : Str) (n : Fin 10) :
    (assertStr s).getLsbD (n.1 + 1) = true ↔ s = numeral n := by
  have hin : ∀ k n : Fin 10, (assertStr (numeral k)).getLsbD (n.1 + 1) = true ↔ numeral k = numeral n := by
    decide
  by_cases h : ∃ k : Fin 10, s = numeral k
  · obtain ⟨k, rfl⟩ := h; exact hin k n
  · have hk : ∀ k : Fin 10, s ≠ numeral k := fun k e => h ⟨k, e⟩
    have : assertStr s = noLvl := by
      have h0 := hk 0; have h1 := hk 1; have h2 := hk 2; have h3 := hk 3; have h4 := hk 4
      have h5 := hk 5; have h6 := hk 6; have h7 := hk 7; have h8 := hk 8; have h9 := hk 9
      simp only [assertStr, levelNumbers, assertStrOn]
      rw [if_neg (show s ≠ b!"0" from h0), if_neg (show s ≠ b!"1" from h1),
        if_neg (show s ≠ b!"2" from h2), if_neg (show s ≠ b!"3" from h3),
        if_neg (show s ≠ b!"4" from h4), if_neg (show s ≠ b!"5" from h5),
        if_neg (show s ≠ b!"6" from h6), if_neg (show s ≠ b!"7" from h7),
        if_neg (show s ≠ b!"8" from h8), if_neg (show s ≠ b!"9" from h9)]
    rw [this]
    constructor
    · simp [noLvl]
    · intro e; exact absurd e (hk n)

private theorem mentions_bit (n : Fin 10) (a : Arg) :
    Mentions n a ↔ (level a).getLsbD (n.1 + 1) = true := by
  have hn : n.1 + 1 < 16 := by omega
  cases a with
  | int i => exact (assertInt_bit i n).symm
  | str s => exact (assertStr_bit s n).symm
  | level l =>
    rw [Mentions, level, const_eq]
    constructor
    · intro h
      cases hb : l.getLsbD (n.1 + 1) with
      | true => rfl
      | false =>
        exfalso; apply h
        apply BitVec.eq_of_getLsbD_eq
        intro j hj
        by_cases hij : n.1 + 1 = j
        · subst hij; simp [hb]
        · simp [BitVec.getLsbD_twoPow, hij]
    · intro hb h
      have := congrArg (fun u => u.getLsbD (n.1 + 1)) h
      simp only [BitVec.getLsbD_and, hb, BitVec.getLsbD_twoPow] at this
      simp [hn] at this
  | other => simp [Mentions, level, noLvl]

theorem holds_bit (S : Shifty 16) (i : Inh) (n : Fin 10) (hz : i.abtv.isZero = false) :
    holds S (some i) n = i.levels.getLsbD (n.1 + 1) := by
  rw [holds, const_eq]
  simp only [positive, isZero, hz, level]
  exact S.positive_bit _ _ (by omega)

private def step (v : BitVec 16) (o : Op Arg) : BitVec 16 :=
  if o.on then shift1 v o.arg else unshift1 v o.arg

private theorem step_bit (v : BitVec 16) (o : Op Arg) (n : Fin 10) :
    (step v o).getLsbD (n.1 + 1) = true ↔
      (Mentions n o.arg ∧ o.on = true) ∨ (¬ Mentions n o.arg ∧ v.getLsbD (n.1 + 1) = true) := by
  have hn : n.1 + 1 < 16 := by omega
  rw [mentions_bit]
  by_cases hon : o.on = true
  · simp only [step, hon, if_true, shift1, Shifty.shift, BitVec.getLsbD_or, Bool.or_eq_true, and_true]
    by_cases hm : (level o.arg).getLsbD (n.1 + 1) = true <;> simp [hm]
  · have hon : o.on = false := by simpa using hon
    simp only [step, hon, Bool.false_eq_true, if_false, unshift1, Shifty.unshift, and_false, false_or]
    rw [BitVec.getLsbD_and, BitVec.getLsbD_not]
    simp only [hn, decide_true, Bool.true_and, Bool.and_eq_true, Bool.not_eq_true', Bool.not_eq_true]
    exact And.comm

private theorem run_levels (i : Inh) (hz : i.abtv.isZero = false) (h : List Call) :
    h.foldl Call.run (some i) = some ⟨(h.flatMap Call.ops).foldl step i.levels, i.abtv⟩ := by
  induction h generalizing i with
  | nil => rfl
  | cons c h ih =>
    have : Call.run (some i) c = some ⟨c.ops.foldl step i.levels, i.abtv⟩ := by
      cases c with
      | shift x => simp [Call.run, shift, isZero, hz, Inh.shift, Call.ops, List.foldl_map, step]
      | unshift x => simp [Call.run, unshift, isZero, hz, Inh.unshift, Call.ops, List.foldl_map, step]
    rw [List.foldl_cons, this, ih ⟨c.ops.foldl step i.levels, i.abtv⟩ hz, List.flatMap_cons, List.foldl_append]

/-- **C06.** Start from any initialised inheritance and apply any history of `Shift`
and `Unshift` calls.  Level n is `Positive` afterwards exactly when the last operation
mentioning n was a `Shift`, or it was held before and no operation mentions it. -/
theorem C06_last_mention_wins (S : Shifty 16) (r : Inheritance) (hr : isZero r = false)
    (h : List Call) (n : Fin 10) :
    holds S (h.foldl Call.run r) n = true ↔
      HeldAfter (Mentions n) (holds S r n = true) (h.flatMap Call.ops) := by
  cases r with
  | none => cases hr
  | some i =>
    have hz : i.abtv.isZero = false := hr
    rw [run_levels i hz, holds_bit S i n hz,
      holds_bit S ⟨(h.flatMap Call.ops).foldl step i.levels, i.abtv⟩ n hz]
    exact fold_heldAfter step (fun v => v.getLsbD (n.1 + 1) = true) (fun _ => True) (Mentions n)
      (fun v o _ => step_bit v o n) _ _ (fun _ _ => trivial)

/-- **C06**, from the constructor on; the pair is kept. -/
theorem C06_from_constructor (S : Shifty 16) (x : ABTV) (hx : x.isZero = false) (init : List Arg)
    (h : List Call) (n : Fin 10) :
    (holds S (h.foldl Call.run (Inherit x init)) n = true ↔
      HeldAfter (Mentions n) False ((Call.shift init :: h).flatMap Call.ops)) ∧
    ∃ w, h.foldl Call.run (Inherit x init) = some ⟨w, x⟩ := by
  have e : Inherit x init = Call.run (some ⟨0#16, x⟩) (.shift init) := by
    simp [Inherit, Call.run, shift, isZero, hx, Inh.shift]
  constructor
  · have := C06_last_mention_wins S (some ⟨0#16, x⟩) hx (Call.shift init :: h) n
    rw [List.foldl_cons, ← e] at this
    rw [this]
    exact HeldAfter.congr (fun _ => Iff.rfl) (by rw [holds_bit S _ n hx]; simp) _
  · rw [e, ← List.foldl_cons (f := Call.run), run_levels _ hx]
    exact ⟨_, rfl⟩

/-- **C06.** An inheritance without an attribute pair holds no level, whatever calls are made. -/
theorem C06_zero (S : Shifty 16) (r : Inheritance) (hr : isZero r = true) (h : List Call) (a : Arg) :
    positive S (h.foldl Call.run r) a = false ∧ isZero (h.foldl Call.run r) = true := by
  have : isZero (h.foldl Call.run r) = true := by
    induction h generalizing r with
    | nil => exact hr
    | cons k h ih =>
      refine ih _ ?_
      cases k with
      | shift x =>
        simp only [Call.run, shift, hr]
        rfl
      | unshift x => simp [Call.run, unshift, hr]
  exact ⟨by simp [positive, this], this⟩

example : isZero none = true ∧ isZero (some ⟨0#16, .zero⟩) = true := by decide

/-- `AllLevels` mentions every level. -/
theorem C06_all_levels (n : Fin 10) : Mentions n (.level AllLevels) := by
  rw [mentions_bit]; revert n; decide

example : (userOrGroupAttr BindUAT [.str b!"cn", .str b!"USERDN"]).isZero = false ∧
    Mentions 4 (.int 4) ∧ Mentions 4 (.str b!"4") ∧ Mentions 4 (.level Level4) ∧
    ¬ Mentions 4 (.level Level3) ∧ ¬ Mentions 4 (.str b!"04") ∧
    holds (Shifty.anyRef 16) ([Call.shift [.level AllLevels], .unshift [.int 3]].foldl Call.run
      (Inherit (userOrGroupAttr BindUAT [.str b!"cn", .str b!"USERDN"]) [])) 3 = false := by
  refine ⟨by decide, rfl, rfl, ?_, ?_, ?_, by decide⟩
  · show Level4 &&& const 4 ≠ 0#16; decide
  · show ¬ (Level3 &&& const 4 ≠ 0#16); decide
  · show ¬ (b!"04" = numeral 4); decide

/-! ## Parsing -/

private theorem prefix_ok (s : Str) :
    Str.hasPrefix (Str.lower s) b!"parent[" = true ↔
      ∃ pre r, s = pre ++ r ∧ AnyCase b!"parent[" pre := by
  constructor
  · intro h
    obtain ⟨q, r, rfl, hq, _⟩ := Str.lower_prefix (by decide +kernel) h
    refine ⟨q, r, rfl, ?_⟩
    rw [AnyCase, hq]; decide
  · rintro ⟨pre, r, rfl, hp⟩
    have ha := hp.ascii (by decide)
    rw [Str.lower_append_ascii ha, hp, Str.hasPrefix_iff]
    exact ⟨Str.lower r, rfl⟩

private theorem pre_length {pre : Str} (h : AnyCase b!"parent[" pre) : pre.length = 7 := by
  have := congrArg List.length h
  simpa using this

private theorem parse_pre {pre r : Str} (h : AnyCase b!"parent[" pre) :
    parseInheritance (pre ++ r) = parseRaw r := by
  have hp : Str.hasPrefix (Str.lower (pre ++ r)) b!"parent[" = true :=
    (prefix_ok _).2 ⟨pre, r, rfl, h⟩
  have hl := pre_length h
  unfold parseInheritance
  rw [hp]
  simp only [Bool.not_true, Bool.false_eq_true, if_false]
  rw [if_neg (by simp [hl]), ← hl, List.drop_left]

private theorem parse_no_pre {s : Str} (h : ¬ ∃ pre r, s = pre ++ r ∧ AnyCase b!"parent[" pre) :
    parseInheritance s = .err := by
  unfold parseInheritance
  rw [if_pos]
  rw [Bool.not_eq_true']
  rw [← prefix_ok] at h
  simpa using h

/-- The full claim of C08: reading any text as an inheritance never panics. -/
def NeverPanics : Prop := ∀ s, parseInheritance s ≠ .panic

/-- **C08, negation**: the text `parent[0]` panics (index out of range). -/
theorem C08_counterexample : ¬ NeverPanics := fun h => h b!"parent[0]" rfl

/-- **C08, part**: the reader panics exactly on the texts that start with `parent[` in
any letter case and whose first `]` after that is the last byte; for all other texts
it returns.
Missing: panic freedom on these texts. -/
theorem C08_panics_partial (s : Str) :
    parseInheritance s = .panic ↔
      ∃ pre lv, s = pre ++ lv ++ b!"]" ∧ AnyCase b!"parent[" pre ∧ (93 : Byte) ∉ lv := by
  constructor
  · intro h
    by_cases hp : ∃ pre r, s = pre ++ r ∧ AnyCase b!"parent[" pre
    · obtain ⟨pre, r, rfl, hp⟩ := hp
      rw [parse_pre hp] at h
      unfold parseRaw at h
      cases hc : Str.cut1 93 r with
      | none => simp [hc] at h
      | some x =>
        obtain ⟨lv, after⟩ := x
        obtain ⟨rfl, hl⟩ := Str.cut1_some hc
        simp only [hc] at h
        cases after with
        | nil => exact ⟨pre, lv, by simp, hp, hl⟩
        | cons c rest =>
          exfalso
          simp only [parseAfter] at h
          split at h
          · cases h
          · simp only [parseRest] at h
            split at h
            · cases h
            · split at h <;> cases h
    · rw [parse_no_pre hp] at h; cases h
  · rintro ⟨pre, lv, rfl, hp, hl⟩
    rw [List.append_assoc, parse_pre hp]
    have e : lv ++ b!"]" = lv ++ 93 :: [] := rfl
    rw [parseRaw, e, Str.cut1_append hl]; rfl

example : parseInheritance b!"parent[0,1" ≠ .panic ∧ parseInheritance b!"PARENT[]" = .panic := by
  refine ⟨?_, rfl⟩
  intro h
  rw [C08_panics_partial] at h
  obtain ⟨pre, lv, e, _, _⟩ := h
  have : (b!"parent[0,1").getLast? = (pre ++ lv ++ b!"]").getLast? := by rw [e]
  rw [List.getLast?_append] at this
  exact absurd this (by simp)

/-- The word made from the pieces of a level list. -/
def word (lv : Str) : BitVec 16 :=
  ((Str.split1 44 (Str.dropSpaces lv)).map Arg.str).foldl shift1 0#16

private theorem fold_bit (ps : List Str) (v : BitVec 16) (n : Fin 10) :
    ((ps.map Arg.str).foldl shift1 v).getLsbD (n.1 + 1) = true ↔
      v.getLsbD (n.1 + 1) = true ∨ numeral n ∈ ps := by
  induction ps generalizing v with
  | nil => simp
  | cons p ps ih =>
    rw [List.map_cons, List.foldl_cons, ih]
    simp only [shift1, Shifty.shift, BitVec.getLsbD_or, Bool.or_eq_true, level, assertStr_bit,
      List.mem_cons, or_assoc, eq_comm (a := p)]

private theorem assertStr_range (s : Str) (i : Nat) (h : ¬ (1 ≤ i ∧ i ≤ 10)) :
    (assertStr s).getLsbD i = false := by
  by_cases hk : ∃ k : Fin 10, s = numeral k
  · obtain ⟨k, rfl⟩ := hk
    have : assertStr (numeral k) = BitVec.twoPow 16 (k.1 + 1) := by revert k; decide
    rw [this, BitVec.getLsbD_twoPow]
    have : k.1 + 1 ≠ i := by omega
    simp [this]
  · cases hb : assertStr s with
    | ofFin f =>
    have : assertStr s = noLvl := by
      have hk : ∀ k : Fin 10, s ≠ numeral k := fun k e => hk ⟨k, e⟩
      have h0 := hk 0; have h1 := hk 1; have h2 := hk 2; have h3 := hk 3; have h4 := hk 4
      have h5 := hk 5; have h6 := hk 6; have h7 := hk 7; have h8 := hk 8; have h9 := hk 9
      simp only [assertStr, levelNumbers, assertStrOn]
      rw [if_neg (show s ≠ b!"0" from h0), if_neg (show s ≠ b!"1" from h1),
        if_neg (show s ≠ b!"2" from h2), if_neg (show s ≠ b!"3" from h3),
        if_neg (show s ≠ b!"4" from h4), if_neg (show s ≠ b!"5" from h5),
        if_neg (show s ≠ b!"6" from h6), if_neg (show s ≠ b!"7" from h7),
        if_neg (show s ≠ b!"8" from h8), if_neg (show s ≠ b!"9" from h9)]
    rw [← hb, this]; simp [noLvl]

private theorem fold_range (ps : List Str) (v : BitVec 16) (i : Nat) (h : ¬ (1 ≤ i ∧ i ≤ 10)) :
    ((ps.map Arg.str).foldl shift1 v).getLsbD i = v.getLsbD i := by
  induction ps generalizing v with
  | nil => rfl
  | cons p ps ih =>
    rw [List.map_cons, List.foldl_cons, ih]
    simp [shift1, Shifty.shift, level, assertStr_range p i h]

theorem word_bit (lv : Str) (n : Fin 10) :
    (word lv).getLsbD (n.1 + 1) = true ↔ Lists lv n := by
  rw [word, fold_bit]; simp [Lists]

theorem word_range (lv : Str) (i : Nat) (h : ¬ (1 ≤ i ∧ i ≤ 10)) :
    (word lv).getLsbD i = false := by
  rw [word, fold_range _ _ _ h]; simp

private theorem word_zero (lv : Str) : (word lv).toNat = 0 ↔ ¬ ∃ n, Lists lv n := by
  constructor
  · rintro h ⟨n, hn⟩
    have : word lv = 0#16 := BitVec.eq_of_toNat_eq (by simpa using h)
    rw [← word_bit, this] at hn
    simp at hn
  · intro h
    have : word lv = 0#16 := by
      apply BitVec.eq_of_getLsbD_eq
      intro i hi
      by_cases hr : 1 ≤ i ∧ i ≤ 10
      · cases hb : (word lv).getLsbD i with
        | false => simp
        | true =>
          exfalso
          apply h
          refine ⟨⟨i - 1, by omega⟩, (word_bit lv _).1 ?_⟩
          have : i - 1 + 1 = i := by omega
          simpa [this] using hb
      · rw [word_range lv i hr]; simp
    simp [this]

private theorem rest_ok (lv rest : Str) (I : Inheritance) :
    parseRest lv rest = .ok I ↔
      (∃ n, Lists lv n) ∧ ∃ A, parseATBTV rest [] = .ok A ∧ I = some ⟨word lv, A⟩ := by
  show (if (word lv).toNat = 0 then Outcome.err else _) = _ ↔ _
  by_cases hw : (word lv).toNat = 0
  · rw [if_pos hw]
    rw [word_zero] at hw
    simp [hw]
  · rw [if_neg hw]
    have hl : ∃ n, Lists lv n := by
      rw [word_zero] at hw; exact Classical.not_not.1 hw
    simp only [hl, true_and]
    cases hp : parseATBTV rest [] with
    | error => simp
    | ok A =>
      simp only [Outcome.ok.injEq, Except.ok.injEq]
      constructor
      · intro h; exact ⟨A, rfl, h.symm⟩
      · rintro ⟨B, rfl, rfl⟩; rfl

theorem parse_ok_iff (s : Str) (I : Inheritance) :
    parseInheritance s = .ok I ↔
      ∃ pre lv rest A, s = pre ++ lv ++ b!"]." ++ rest ∧ AnyCase b!"parent[" pre ∧
        (93 : Byte) ∉ lv ∧ (∃ n, Lists lv n) ∧ parseATBTV rest [] = .ok A ∧
        I = some ⟨word lv, A⟩ := by
  constructor
  · intro h
    by_cases hp : ∃ pre r, s = pre ++ r ∧ AnyCase b!"parent[" pre
    · obtain ⟨pre, r, rfl, hp⟩ := hp
      rw [parse_pre hp] at h
      unfold parseRaw at h
      cases hc : Str.cut1 93 r with
      | none => simp [hc] at h
      | some x =>
        obtain ⟨lv, after⟩ := x
        obtain ⟨rfl, hl⟩ := Str.cut1_some hc
        simp only [hc] at h
        cases after with
        | nil => simp [parseAfter] at h
        | cons c rest =>
          simp only [parseAfter] at h
          by_cases hcc : c = 46
          · subst hcc
            simp only [ne_eq, not_true_eq_false, if_false] at h
            obtain ⟨hn, A, hA, rfl⟩ := (rest_ok lv rest I).1 h
            exact ⟨pre, lv, rest, A, by simp, hp, hl, hn, hA, rfl⟩
          · simp [hcc] at h
    · rw [parse_no_pre hp] at h; cases h
  · rintro ⟨pre, lv, rest, A, rfl, hp, hl, hn, hA, rfl⟩
    have e : pre ++ lv ++ b!"]." ++ rest = pre ++ (lv ++ 93 :: 46 :: rest) := by simp
    rw [e, parse_pre hp, parseRaw, Str.cut1_append hl]
    simp only [parseAfter, ne_eq, not_true_eq_false, if_false]
    exact (rest_ok lv rest _).2 ⟨hn, A, hA, rfl⟩

/-- **C09.** Parsing succeeds exactly for text that starts with `parent[` in any letter
case, has a `]` (the first one) followed by a dot, lists at least one known level
before it and has a parsable pair after the dot.  The resulting levels are exactly the
known levels listed, and the pair is the parsed one. -/
theorem C09_accepted (s : Str) :
    (∃ I, parseInheritance s = .ok I) ↔
      ∃ pre lv rest, s = pre ++ lv ++ b!"]." ++ rest ∧ AnyCase b!"parent[" pre ∧
        (93 : Byte) ∉ lv ∧ (∃ n, Lists lv n) ∧ ∃ A, parseATBTV rest [] = .ok A := by
  constructor
  · rintro ⟨I, h⟩
    obtain ⟨pre, lv, rest, A, e, hp, hl, hn, hA, _⟩ := (parse_ok_iff s I).1 h
    exact ⟨pre, lv, rest, e, hp, hl, hn, A, hA⟩
  · rintro ⟨pre, lv, rest, e, hp, hl, hn, A, hA⟩
    exact ⟨_, (parse_ok_iff s _).2 ⟨pre, lv, rest, A, e, hp, hl, hn, hA, rfl⟩⟩

/-- **C09**, the result: its levels are the listed ones, its pair the parsed one. -/
theorem C09_result (S : Shifty 16) (pre lv rest : Str) (I : Inheritance)
    (hp : AnyCase b!"parent[" pre) (hl : (93 : Byte) ∉ lv)
    (h : parseInheritance (pre ++ lv ++ b!"]." ++ rest) = .ok I) :
    (∀ n, holds S I n = true ↔ Lists lv n) ∧
    ∃ i, I = some i ∧ parseATBTV rest [] = .ok i.abtv := by
  have e : pre ++ lv ++ b!"]." ++ rest = pre ++ (lv ++ 93 :: 46 :: rest) := by simp
  rw [e, parse_pre hp, parseRaw, Str.cut1_append hl] at h
  simp only [parseAfter, ne_eq, not_true_eq_false, if_false] at h
  obtain ⟨_, A, hA, rfl⟩ := (rest_ok lv rest I).1 h
  refine ⟨fun n => ?_, _, rfl, hA⟩
  rw [holds_bit S _ n (parse_not_zero hA), word_bit]

example : (∃ I, parseInheritance b!"Parent[0, 3,x].cn#USERDN" = .ok I) ∧
    Lists b!"0, 3,x" 3 ∧ ¬ Lists b!"0, 3,x" 4 := by
  refine ⟨?_, by decide, by decide⟩
  rw [C09_accepted]
  refine ⟨b!"Parent[", b!"0, 3,x", b!"cn#USERDN", rfl, by decide, by decide, ⟨3, by decide⟩, _,
    parse_ok.2 ⟨b!"cn", b!"USERDN", rfl, Or.inl ((isIdentifier_iff _).1 (by decide)), rfl⟩⟩

/-! ## Round trip -/

private theorem numeral_no (n : Fin 10) : (44 : Byte) ∉ numeral n ∧ (32 : Byte) ∉ numeral n ∧
    (93 : Byte) ∉ numeral n := by revert n; decide

private theorem join_no {c : Byte} {l : List Str} (hc : c ≠ 44) (h : ∀ s ∈ l, c ∉ s) :
    c ∉ Str.join b!"," l := by
  induction l with
  | nil => simp [Str.join]
  | cons a l ih =>
    cases l with
    | nil => simpa [Str.join] using h a (by simp)
    | cons b l =>
      simp only [Str.join, List.append_assoc, List.mem_append, List.mem_singleton, not_or]
      exact ⟨h a (by simp), hc, ih fun s hs => h s (by simp [hs])⟩

private theorem lists_levelList (f : Fin 10 → Bool) (n : Fin 10) (hne : ∃ n, f n = true) :
    Lists (levelList f) n ↔ f n = true := by
  have hl : ((List.finRange 10).filter f).map numeral ≠ [] := by
    obtain ⟨k, hk⟩ := hne
    intro e
    have : numeral k ∈ ((List.finRange 10).filter f).map numeral :=
      List.mem_map_of_mem (List.mem_filter.2 ⟨List.mem_finRange k, hk⟩)
    rw [e] at this; cases this
  have hs : Str.dropSpaces (levelList f) = levelList f := by
    apply List.filter_eq_self.2
    intro c hc
    simp only [ne_eq, decide_not, Bool.not_eq_true', decide_eq_false_iff_not]
    rintro rfl
    exact join_no (by decide) (by simp only [List.mem_map]; rintro s ⟨k, _, rfl⟩; exact (numeral_no k).2.1) hc
  have inj : ∀ k n : Fin 10, numeral k = numeral n → k = n := by decide
  rw [Lists, hs, levelList, Str.split1_join hl
    (by simp only [List.mem_map]; rintro s ⟨k, _, rfl⟩; exact (numeral_no k).1)]
  simp only [List.mem_map, List.mem_filter, List.mem_finRange, true_and]
  constructor
  · rintro ⟨k, hk, e⟩; rw [← inj k n e]; exact hk
  · intro h; exact ⟨n, h, rfl⟩

private theorem levelList_no (f : Fin 10 → Bool) : (93 : Byte) ∉ levelList f :=
  join_no (by decide) (by simp only [List.mem_map]; rintro s ⟨k, _, rfl⟩; exact (numeral_no k).2.2)

private theorem levelString_const (k : Fin 10) : levelString (BitVec.twoPow 16 (k.1 + 1)) = numeral k := by
  revert k; decide

/-- Printing the levels of a word without stray bits. -/
private theorem levelsString_eq (S : Shifty 16) (v : BitVec 16) (f : Fin 10 → Bool)
    (hf : ∀ n : Fin 10, v.getLsbD (n.1 + 1) = f n) (h0 : v.getLsbD 0 = false)
    (h11 : v.getLsbD 11 = false) (hne : ∃ n, f n = true) : levelsString S v = levelList f := by
  have hpos : v.toNat > 0 := by
    obtain ⟨n, hn⟩ := hne
    apply Nat.pos_of_ne_zero
    intro h
    have : v = 0#16 := BitVec.eq_of_toNat_eq (by simpa using h)
    have h2 := hf n
    rw [this, hn] at h2
    simp at h2
  have hr : (List.range levelBitIter).map (fun i => BitVec.twoPow 16 i) =
      BitVec.twoPow 16 0 :: ((List.finRange 10).map fun n => BitVec.twoPow 16 (n.1 + 1)) ++
        [BitVec.twoPow 16 11] := by decide
  have hs : scan S v = ((List.finRange 10).filter f).map fun n => BitVec.twoPow 16 (n.1 + 1) := by
    rw [scan, hr]
    rw [List.filter_append, List.filter_cons, List.filter_cons]
    rw [S.positive_bit v 0 (by omega), S.positive_bit v 11 (by omega), h0, h11]
    simp only [Bool.false_eq_true, if_false, List.filter_nil, List.append_nil]
    rw [List.filter_map]
    congr 1
    apply List.filter_congr
    intro n _
    simp only [Function.comp_apply]
    rw [S.positive_bit v _ (by omega), hf]
  rw [levelsString, if_pos hpos, hs, List.map_map, levelList]
  congr 1
  apply List.map_congr_left
  intro n _
  exact levelString_const n

/-- **C07.** For every non-empty set of levels and every pair text that round-trips,
the text `parent[...].pair` parses to an inheritance with exactly those levels and
that pair, which prints the same text again. -/
theorem C07_round_trip (S : Shifty 16) (f : Fin 10 → Bool) (hf : ∃ n, f n = true) (t : Str)
    (A : ABTV) (hp : parseATBTV t [] = .ok A) (ht : A.string = some t) :
    ∃ i : Inh, parseInheritance (inheritText f t) = .ok (some i) ∧ i.abtv = A ∧
      (∀ n, holds S (some i) n = f n) ∧ string S (some i) = inheritText f t := by
  have hl := fun n => lists_levelList f n hf
  have hex : ∃ n, Lists (levelList f) n := by
    obtain ⟨n, hn⟩ := hf; exact ⟨n, (hl n).2 hn⟩
  have hz := parse_not_zero hp
  have hb : ∀ n : Fin 10, (word (levelList f)).getLsbD (n.1 + 1) = f n := by
    intro n
    rw [Bool.eq_iff_iff, word_bit]; exact hl n
  refine ⟨⟨word (levelList f), A⟩, ?_, rfl, ?_, ?_⟩
  · rw [parse_ok_iff]
    exact ⟨b!"parent[", levelList f, t, A, rfl, by decide, levelList_no f, hex, hp, rfl⟩
  · intro n
    rw [holds_bit S _ n hz]; exact hb n
  · simp only [string, hz, Bool.false_eq_true, if_false, ht, Option.getD_some]
    rw [levelsString_eq S _ f hb (word_range _ 0 (by omega)) (word_range _ 11 (by omega)) hf]
    rfl

/-- **C07**, made by the constructor: an inheritance with any non-empty set of levels
(given as constants, in any order and number) and a pair that round-trips prints the
text of these levels and parses back to them. -/
theorem C07_from_constructor (S : Shifty 16) (ls : List (Fin 10)) (hne : ls ≠ []) (t : Str)
    (A : ABTV) (hp : parseATBTV t [] = .ok A) (ht : A.string = some t) :
    string S (Inherit A (ls.map fun n => .level (const n))) =
      inheritText (fun n => decide (n ∈ ls)) t ∧
    parseInheritance (string S (Inherit A (ls.map fun n => .level (const n)))) =
      .ok (Inherit A (ls.map fun n => .level (const n))) := by
  have hz := parse_not_zero hp
  let f : Fin 10 → Bool := fun n => decide (n ∈ ls)
  have hex : ∃ n, f n = true := by
    obtain ⟨a, t, rfl⟩ := List.exists_cons_of_ne_nil hne
    exact ⟨a, by simp [f]⟩
  let w : BitVec 16 := (ls.map fun n => Arg.level (const n)).foldl shift1 0#16
  have hI : Inherit A (ls.map fun n => .level (const n)) = some ⟨w, A⟩ := rfl
  have bits : ∀ (ls : List (Fin 10)) (v : BitVec 16) (i : Nat), i < 16 →
      ((ls.map fun n => Arg.level (const n)).foldl shift1 v).getLsbD i =
        (v.getLsbD i || ls.any fun n => n.1 + 1 == i) := by
    intro ls
    induction ls with
    | nil => intro v i _; simp
    | cons a ls ih =>
      intro v i hi
      rw [List.map_cons, List.foldl_cons, ih _ _ hi]
      simp only [shift1, Shifty.shift, level, const_eq, BitVec.getLsbD_or, BitVec.getLsbD_twoPow,
        List.any_cons, Bool.or_assoc]
      congr 2
      by_cases h : a.1 + 1 = i
      · simp [h, hi]
      · simp [h]
  have hb : ∀ n : Fin 10, w.getLsbD (n.1 + 1) = f n := by
    intro n
    rw [bits ls _ _ (by omega), Bool.eq_iff_iff]
    simp only [f, BitVec.getLsbD_zero, Bool.false_or, List.any_eq_true, beq_iff_eq,
      Nat.add_right_cancel_iff, decide_eq_true_eq]
    constructor
    · rintro ⟨x, hx, e⟩
      have : x = n := Fin.ext e
      exact this ▸ hx
    · intro h; exact ⟨n, h, rfl⟩
  have hout : ∀ i, i < 16 → ¬ (1 ≤ i ∧ i ≤ 10) → w.getLsbD i = false := by
    intro i hi hr
    rw [bits ls _ _ hi]
    simp only [BitVec.getLsbD_zero, Bool.false_or, List.any_eq_false, beq_iff_eq]
    intro x _; omega
  have hs : string S (some ⟨w, A⟩) = inheritText f t := by
    simp only [string, hz, Bool.false_eq_true, if_false, ht, Option.getD_some]
    rw [levelsString_eq S w f hb (hout 0 (by omega) (by omega)) (hout 11 (by omega) (by omega)) hex]
    rfl
  refine ⟨by rw [hI]; exact hs, ?_⟩
  rw [hI, hs]
  obtain ⟨i, hi, hA, hh, _⟩ := C07_round_trip S f hex t A hp ht
  rw [hi]
  have : i.levels = w := by
    apply BitVec.eq_of_getLsbD_eq
    intro j hj
    obtain ⟨pre, lv, rest, B, _, _, _, _, _, he⟩ := (parse_ok_iff _ _).1 hi
    by_cases hr : 1 ≤ j ∧ j ≤ 10
    · have h1 := hh ⟨j - 1, by omega⟩
      have h2 := hb ⟨j - 1, by omega⟩
      rw [holds_bit S i _ (by rw [hA]; exact hz)] at h1
      simp only [show j - 1 + 1 = j by omega] at h1 h2
      rw [h1, h2]
    · have : i.levels = word lv := by
        have := Option.some.inj he; rw [this]
      rw [this, word_range lv j hr, hout j hj hr]
  obtain ⟨lv, ab⟩ := i
  simp only at this hA
  rw [this, hA]

example : ∃ A, parseATBTV b!"manager#USERDN" [] = .ok A ∧ A.string = some b!"manager#USERDN" ∧
    inheritText (fun n => decide (n ∈ [3, 0])) b!"manager#USERDN" = b!"parent[0,3].manager#USERDN" :=
  ⟨_, parse_ok.2 ⟨b!"manager", b!"USERDN", rfl, Or.inl ((isIdentifier_iff _).1 (by decide)), rfl⟩,
    by decide, by decide⟩

end Verif.Levels
