import Verif.Lemmas.Time
import Verif.Lemmas.History
import Verif.Lemmas.Inside

/-!
# C10 to C15: days and clock times
-/

namespace Verif.Time
open Verif Verif.Spec

/-- The exported constant of each day. -/
def const : Weekday → Day
  | .sun => Sun | .mon => Mon | .tue => Tues | .wed => Wed
  | .thu => Thur | .fri => Fri | .sat => Sat

/-- An argument mentions a day: by number, by name in any letter case, or as (part
of) a `Day` value. -/
def Mentions (d : Weekday) : Arg → Prop
  | .int i => i = d.number
  | .str s => d.NamedBy s
  | .day x => x &&& const d ≠ 0#8
  | .other => False

/-- A call of `Shift` or `Unshift`. -/
inductive Call where
  | shift (x : List Arg)
  | unshift (x : List Arg)

def Call.args : Call → List Arg
  | .shift x => x
  | .unshift x => x

/-- The call, on the model. -/
def Call.run (r : DayOfWeek) : Call → DayOfWeek
  | .shift x => Time.shift r x
  | .unshift x => Time.unshift r x

/-- The call as a list of single operations, one for each argument. -/
def Call.ops : Call → List (Op Arg)
  | .shift x => x.map fun a => ⟨true, a⟩
  | .unshift x => x.map fun a => ⟨false, a⟩

/-- The days of a set, through `Positive`. -/
def holds (S : Shifty 8) (r : DayOfWeek) (d : Weekday) : Bool := positive S r (const d)

private theorem const_eq (d : Weekday) : const d = BitVec.twoPow 8 (idx d) := by
  cases d <;> decide

theorem holds_bit (S : Shifty 8) (r : DayOfWeek) (d : Weekday) :
    holds S r d = (r.getD 0#8).getLsbD (idx d) := by
  cases r with
  | none => simp [holds, positive]
  | some v => rw [holds, const_eq]; exact S.positive_bit v _ (idx_lt d)

private theorem mentions_bit (d : Weekday) (a : Arg) :
    Mentions d a ↔ (matchDoW a).getLsbD (idx d) = true := by
  cases a with
  | int i => exact (matchInt_bit i d).symm
  | str s => exact (matchStr_bit s d).symm
  | day x =>
    have : ∀ n : Fin 256, ((BitVec.ofNat 8 n.1) &&& const d ≠ 0#8 ↔
        (BitVec.ofNat 8 n.1).getLsbD (idx d) = true) := by cases d <;> decide +kernel
    exact word_cases (fun x => (x &&& const d ≠ 0#8 ↔ x.getLsbD (idx d) = true)) this x
  | other => simp [Mentions, matchDoW, noDay]

private def step (r : BitVec 8) (o : Op Arg) : BitVec 8 :=
  if o.on then shift1 r o.arg else unshift1 r o.arg

private theorem run_word (r : DayOfWeek) (k : Call) (d : Weekday) :
    (((k.run r).getD 0#8).getLsbD (idx d) = true ↔
      ((k.ops.foldl step (r.getD 0#8)).getLsbD (idx d) = true)) := by
  have un : ∀ (x : List Arg) (v : BitVec 8), v.getLsbD (idx d) = false →
      (x.foldl unshift1 v).getLsbD (idx d) = false := by
    intro x
    induction x with
    | nil => intro v h; exact h
    | cons a t ih =>
      intro v h
      refine ih _ ?_
      cases hb : (unshift1 v a).getLsbD (idx d) with
      | false => rfl
      | true => rw [unshift1_bit v a _ (idx_lt d)] at hb; rw [h] at hb; exact absurd hb.2 (by simp)
  cases k with
  | shift x => simp [Call.run, Call.ops, shift, step, List.foldl_map]
  | unshift x =>
    cases r with
    | some v => simp [Call.run, Call.ops, unshift, step, List.foldl_map]
    | none =>
      have := un x 0#8 (by simp)
      simp [Call.run, Call.ops, unshift, step, List.foldl_map, this]

private theorem step_bit (v : BitVec 8) (o : Op Arg) (d : Weekday) :
    (step v o).getLsbD (idx d) = true ↔
      (Mentions d o.arg ∧ o.on = true) ∨ (¬ Mentions d o.arg ∧ v.getLsbD (idx d) = true) := by
  rw [mentions_bit]
  by_cases hon : o.on = true
  · simp only [step, hon, if_true, shift1_bit]
    by_cases hm : (matchDoW o.arg).getLsbD (idx d) = true <;> simp [hm]
  · have hon : o.on = false := by simpa using hon
    simp only [step, hon, Bool.false_eq_true, if_false, unshift1_bit _ _ _ (idx_lt d), and_false,
      false_or]

/-- **C10.** Start from any day set and apply any history of `Shift` and `Unshift`
calls.  A day is `Positive` afterwards exactly when the last operation mentioning it
was a `Shift`, or it was held before and no operation mentions it. -/
theorem C10_last_mention_wins (S : Shifty 8) (r : DayOfWeek) (h : List Call) (d : Weekday) :
    holds S (h.foldl Call.run r) d = true ↔
      HeldAfter (Mentions d) (holds S r d = true) (h.flatMap Call.ops) := by
  have key : ∀ r : DayOfWeek, ((h.foldl Call.run r).getD 0#8).getLsbD (idx d) = true ↔
      ((h.flatMap Call.ops).foldl step (r.getD 0#8)).getLsbD (idx d) = true := by
    have agree : ∀ (ops : List (Op Arg)) (v w : BitVec 8),
        (v.getLsbD (idx d) = true ↔ w.getLsbD (idx d) = true) →
        ((ops.foldl step v).getLsbD (idx d) = true ↔ (ops.foldl step w).getLsbD (idx d) = true) := by
      intro ops
      induction ops with
      | nil => intro v w h; exact h
      | cons o t ih =>
        intro v w h
        refine ih _ _ ?_
        rw [step_bit, step_bit, h]
    induction h with
    | nil => intro r; exact Iff.rfl
    | cons k t ih =>
      intro r
      rw [List.foldl_cons, ih, List.flatMap_cons, List.foldl_append]
      exact agree _ _ _ (run_word r k d)
  rw [holds_bit, key, holds_bit]
  exact fold_heldAfter step (fun v => v.getLsbD (idx d) = true) (fun _ => True) (Mentions d)
    (fun v o _ => step_bit v o d) _ _ (fun _ _ => trivial)

/-- **C10**, from the constructor on. -/
theorem C10_from_constructor (S : Shifty 8) (init : List Arg) (h : List Call) (d : Weekday) :
    holds S (h.foldl Call.run (DoW init)) d = true ↔
      HeldAfter (Mentions d) False ((Call.shift init :: h).flatMap Call.ops) := by
  have := C10_last_mention_wins S (some 0#8) (Call.shift init :: h) d
  rw [List.foldl_cons] at this
  rw [show DoW init = Call.run (some 0#8) (.shift init) from rfl, this]
  exact HeldAfter.congr (fun _ => Iff.rfl) (by simp [holds_bit]) _

example : Mentions .tue (.str b!"TUESDAY") ∧ Mentions .tue (.int 3) ∧ Mentions .tue (.day Tues) ∧
    ¬ Mentions .mon (.str b!"Mo") := by
  simp only [Mentions]; decide

example : holds (.anyRef 8) ([Call.unshift [.str b!"Mon"], .shift [.int 7]].foldl Call.run
    (DoW [.day Mon, .day Wed])) .sat = true := by decide

/-- The set holds nothing but days (no `Day` value outside the seven constants was
ever used). -/
def OnlyDays (r : DayOfWeek) : Prop := ∀ v, r = some v → v.getLsbD 0 = false

/-- Arguments that are names, numbers, or sums of the seven constants. -/
def ArgDays : Arg → Prop
  | .day x => x.getLsbD 0 = false
  | _ => True

/-- Sets made and changed with names, numbers and the constants hold only days. -/
theorem C11_reachable (init : List Arg) (h : List Call)
    (hr : ∀ k ∈ Call.shift init :: h, ∀ a ∈ k.args, ArgDays a) :
    OnlyDays (h.foldl Call.run (DoW init)) := by
  have even : ∀ a : Arg, ArgDays a → (matchDoW a).getLsbD 0 = false := by
    intro a ha
    cases a with
    | int i => exact matchInt_even i
    | str s => exact matchLower_even _
    | day x => exact ha
    | other => simp [matchDoW, noDay]
  have up : ∀ (x : List Arg) (v : BitVec 8), (∀ a ∈ x, ArgDays a) → v.getLsbD 0 = false →
      (x.foldl shift1 v).getLsbD 0 = false ∧ (x.foldl unshift1 v).getLsbD 0 = false := by
    intro x
    induction x with
    | nil => intro v _ h; exact ⟨h, h⟩
    | cons a t ih =>
      intro v ha hv
      have e := even a (ha a (by simp))
      refine ⟨(ih _ (fun b hb => ha b (by simp [hb])) ?_).1, (ih _ (fun b hb => ha b (by simp [hb])) ?_).2⟩
      · cases hb : (shift1 v a).getLsbD 0 with
        | false => rfl
        | true => rw [shift1_bit, e, hv] at hb; simp at hb
      · cases hb : (unshift1 v a).getLsbD 0 with
        | false => rfl
        | true => rw [unshift1_bit _ _ _ (by decide), hv] at hb; simp at hb
  have one : ∀ (k : Call) (r : DayOfWeek), (∀ a ∈ k.args, ArgDays a) → OnlyDays r →
      OnlyDays (k.run r) := by
    intro k r hk hr
    cases k with
    | shift x =>
      intro v hv
      simp only [Call.run, shift, Option.some.injEq] at hv
      subst hv
      refine (up x _ hk ?_).1
      cases r with
      | none => simp
      | some w => exact hr w rfl
    | unshift x =>
      intro v hv
      cases r with
      | none => simp [Call.run, unshift] at hv
      | some w =>
        simp only [Call.run, unshift, Option.map_some, Option.some.injEq] at hv
        subst hv
        exact (up x _ hk (hr w rfl)).2
  have all : ∀ (h : List Call) (r : DayOfWeek), (∀ k ∈ h, ∀ a ∈ k.args, ArgDays a) → OnlyDays r →
      OnlyDays (h.foldl Call.run r) := by
    intro h
    induction h with
    | nil => intro r _ h; exact h
    | cons k t ih =>
      intro r hk hr
      exact ih _ (fun k' h' => hk k' (by simp [h'])) (one k r (hk k (by simp)) hr)
  have := all (Call.shift init :: h) (some 0#8) hr (fun v hv => by
    simp only [Option.some.injEq] at hv; subst hv; simp)
  exact this

private theorem nonempty_ne (S : Shifty 8) {v : BitVec 8} {d : Weekday}
    (h : holds S (some v) d = true) : v ≠ 0#8 := by
  rintro rfl; rw [holds_bit] at h; simp at h

private theorem holds_some (S : Shifty 8) (v : BitVec 8) : holds S (some v) = heldOf v :=
  funext fun d => holds_bit S (some v) d

/-- **C11.** A non-empty set of days prints the names of its days, in the order of
the week, separated by commas. -/
theorem C11_text (S : Shifty 8) (r : DayOfWeek) (hr : OnlyDays r) (d : Weekday)
    (hd : holds S r d = true) : string S r = daysText (holds S r) := by
  cases r with
  | none => simp [holds, positive] at hd
  | some v =>
    rw [string_some, holds_some, wordText_eq v (hr v rfl) (nonempty_ne S hd)]

/-- **C11.** Reading the text back, whatever its spacing and letter case, gives the
same set. -/
theorem C11_round_trip (S : Shifty 8) (r : DayOfWeek) (hr : OnlyDays r) (d : Weekday)
    (hd : holds S r d = true) (t : Str)
    (ht : Str.lower (Str.dropSpaces t) = Str.lower (string S r)) :
    parseDoW S t = .ok r := by
  cases r with
  | none => simp [holds, positive] at hd
  | some v =>
    have hne := nonempty_ne S hd
    rw [C11_text S _ hr d hd, holds_some] at ht
    have key := word_cases (fun v => v.getLsbD 0 = false → v ≠ 0#8 →
      lowerLoop (Str.split1 44 (Str.lower (daysText (heldOf v)))) 0#8 = some v)
      round_table v (hr v rfl) hne
    rw [← ht, Str.split1_lower (by decide) (by decide) (by decide)] at key
    rw [parseDoW, parseLoop_eq, key]
    simp only
    rw [if_pos ((valid_some S v (hr v rfl)).2 hne)]

/-- **C11.** The text determines the set. -/
theorem C11_text_injective (S : Shifty 8) (r q : DayOfWeek) (hr : OnlyDays r) (hq : OnlyDays q)
    (d : Weekday) (hd : holds S r d = true) (e : Weekday) (he : holds S q e = true)
    (h : string S r = string S q) : ∀ d, holds S r d = holds S q d := by
  have h1 := C11_round_trip S r hr d hd (string S r) (by
    rw [C11_text S r hr d hd]
    cases r with
    | none => simp [holds, positive] at hd
    | some v =>
      rw [holds_some]
      have : ∀ n : Fin 256, Str.dropSpaces (daysText (heldOf (BitVec.ofNat 8 n.1))) =
        daysText (heldOf (BitVec.ofNat 8 n.1)) := by decide +kernel
      rw [word_cases (fun v => Str.dropSpaces (daysText (heldOf v)) = daysText (heldOf v)) this v])
  have h2 := C11_round_trip S q hq e he (string S q) (by
    rw [C11_text S q hq e he]
    cases q with
    | none => simp [holds, positive] at he
    | some v =>
      rw [holds_some]
      have : ∀ n : Fin 256, Str.dropSpaces (daysText (heldOf (BitVec.ofNat 8 n.1))) =
        daysText (heldOf (BitVec.ofNat 8 n.1)) := by decide +kernel
      rw [word_cases (fun v => Str.dropSpaces (daysText (heldOf v)) = daysText (heldOf v)) this v])
  rw [h, h2] at h1
  simp only [Except.ok.injEq] at h1
  intro d; rw [h1]

example : OnlyDays (DoW [.day Fri, .str b!"sun"]) ∧
    string (.anyRef 8) (DoW [.day Fri, .str b!"sun"]) = b!"Sun,Fri" ∧
    Str.lower (Str.dropSpaces b!" SUN , fri") = Str.lower b!"Sun,Fri" :=
  ⟨C11_reachable _ [] (by
    intro k hk a ha
    simp only [List.mem_cons, List.not_mem_nil, or_false] at hk
    subst hk
    simp only [Call.args, List.mem_cons, List.not_mem_nil, or_false] at ha
    rcases ha with rfl | rfl <;> simp only [ArgDays]
    decide), by decide +kernel, by decide⟩

/-- The restriction to the seven days is needed: a `Day` of value 1 prints as the
marker of an invalid set. -/
example : string (.anyRef 8) (DoW [.day 1#8, .day Fri]) = b!"<invalid_days>,Fri" := by decide +kernel

/-- The entries of a comma-separated list, spaces ignored. -/
def entries (t : Str) : List Str := Str.split1 44 (Str.dropSpaces t)

/-- **C12.** Reading a list of days fails exactly when some entry names no day. -/
theorem C12_refuses (S : Shifty 8) (t : Str) :
    parseDoW S t = .error () ↔ ∃ x ∈ entries t, ∀ d : Weekday, ¬ d.NamedBy x := by
  have hent : ∃ x r, entries t = x :: r := List.exists_cons_of_ne_nil (Str.split1_ne_nil 44 _)
  rcases parseDoW_eq S t ((entries t).map Str.lower) rfl with ⟨hl, he⟩ | ⟨v, hl, he⟩
  · simp only [he, true_iff]
    obtain ⟨x, hx, hd⟩ := lowerLoop_none hl
    obtain ⟨y, hy, rfl⟩ := List.mem_map.1 hx
    exact ⟨y, hy, hd⟩
  · obtain ⟨h1, h2, h3⟩ := lowerLoop_some hl
    have hne : v ≠ 0#8 := by
      obtain ⟨x, r, hx⟩ := hent
      obtain ⟨d, hd⟩ := h1 (Str.lower x) (by rw [hx]; simp)
      have := (h2 d).2 (Or.inr ⟨_, by rw [hx]; simp, hd⟩)
      rintro rfl; simp at this
    rw [he, if_pos ((valid_some S v (h3 (by simp))).2 hne)]
    simp only [reduceCtorEq, false_iff, not_exists, not_and]
    intro x hx hn
    obtain ⟨d, hd⟩ := h1 (Str.lower x) (List.mem_map_of_mem hx)
    exact hn d hd

/-- **C12.** A list that is read gives exactly the days named in it. -/
theorem C12_exact (S : Shifty 8) (t : Str) (r : DayOfWeek) (h : parseDoW S t = .ok r) :
    (∀ x ∈ entries t, ∃ d : Weekday, d.NamedBy x) ∧ OnlyDays r ∧ valid S r = true ∧
    ∀ d : Weekday, holds S r d = true ↔ ∃ x ∈ entries t, d.NamedBy x := by
  rcases parseDoW_eq S t ((entries t).map Str.lower) rfl with ⟨hl, he⟩ | ⟨v, hl, he⟩
  · rw [he] at h; simp at h
  · rw [he] at h
    split at h
    · next hv =>
      simp only [Except.ok.injEq] at h
      subst h
      obtain ⟨h1, h2, h3⟩ := lowerLoop_some hl
      refine ⟨fun x hx => h1 _ (List.mem_map_of_mem hx), ?_, hv, ?_⟩
      · intro w hw
        simp only [Option.some.injEq] at hw
        subst hw; exact h3 (by simp)
      · intro d
        rw [holds_bit, Option.getD_some, h2 d]
        constructor
        · rintro (h | ⟨x, hx, hd⟩)
          · simp at h
          · obtain ⟨y, hy, rfl⟩ := List.mem_map.1 hx
            exact ⟨y, hy, hd⟩
        · rintro ⟨x, hx, hd⟩
          exact Or.inr ⟨_, List.mem_map_of_mem hx, hd⟩
    · exact absurd h (by simp)

/-- **C12**, for the value of a bind rule: exactly one value is required; what it says
inside of white space and quotation marks is a list whose entries name days, and these
days are read. -/
theorem C12_bind_value (S : Shifty 8) (values : List Str) (r : DayOfWeek)
    (h : assertBindDayOfWeek S values = .ok r) :
    ∃ v t, values = [v] ∧ Inside v t ∧ (∀ x ∈ entries t, ∃ d : Weekday, d.NamedBy x) ∧ OnlyDays r ∧
      ∀ d : Weekday, holds S r d = true ↔ ∃ x ∈ entries t, d.NamedBy x := by
  unfold assertBindDayOfWeek at h
  split at h
  · obtain ⟨h1, h2, -, h3⟩ := C12_exact S _ r h
    exact ⟨_, _, rfl, inside_of _, h1, h2, h3⟩
  · exact absurd h (by simp)

/-- **C12**, the converse: one value whose entries all name days is read. -/
theorem C12_bind_reads (S : Shifty 8) (v t : Str) (h : Inside v t)
    (hent : ∀ x ∈ entries t, ∃ d : Weekday, d.NamedBy x) : ∃ r, assertBindDayOfWeek S [v] = .ok r := by
  rw [inside_iff] at h
  unfold assertBindDayOfWeek
  simp only [h]
  cases hp : parseDoW S t with
  | ok r => exact ⟨r, rfl⟩
  | error e =>
    obtain ⟨x, hx, hn⟩ := (C12_refuses S t).1 hp
    obtain ⟨d, hd⟩ := hent x hx
    exact absurd hd (hn d)

example : Inside b!" ' Mon,\ttues '\n" b!" Mon, tues " ∧ entries b!" Mon, tues " = [b!"Mon", b!"tues"] :=
  ⟨(inside_iff _ _).2 (by decide +kernel), by decide +kernel⟩

/-- Every way to write such a list without outer spaces, in quotes or not, is read. -/
theorem C12_bind_accepts (S : Shifty 8) (l p t q r : Str) (hl : Spaces l) (hr : Spaces r)
    (hp : Quote? p) (hq : Quote? q) (ht : Plain t) (hlen : 2 < t.length)
    (hent : ∀ x ∈ entries t, ∃ d : Weekday, d.NamedBy x) :
    ∃ w, assertBindDayOfWeek S [l ++ p ++ t ++ q ++ r] = .ok w ∧
      ∀ d : Weekday, holds S w d = true ↔ ∃ x ∈ entries t, d.NamedBy x := by
  have hne : t ≠ [] := by rintro rfl; simp at hlen
  -- a day name has no quotation mark in it
  have noq : ∀ c ∈ t, Misc.isQuote c = false := by
    intro c hc
    cases hcq : Misc.isQuote c with
    | false => rfl
    | true =>
      exfalso
      have hc44 : c ≠ 44 := by rintro rfl; exact absurd hcq (by decide)
      have hc32 : c ≠ 32 := by rintro rfl; exact absurd hcq (by decide)
      have hm : c ∈ Str.dropSpaces t := by
        simp only [Str.dropSpaces, List.mem_filter]
        exact ⟨hc, by simpa using hc32⟩
      have hj := Str.join_split1 44 (Str.dropSpaces t)
      have hex : ∃ x ∈ entries t, c ∈ x := by
        have : ∀ l : List Str, c ∈ Str.join [44] l → ∃ x ∈ l, c ∈ x := by
          intro l
          induction l with
          | nil => intro h; simp [Str.join] at h
          | cons a l ih =>
            cases l with
            | nil => intro h; exact ⟨a, by simp, by simpa [Str.join] using h⟩
            | cons b l =>
              intro h
              rw [Str.join] at h
              simp only [List.mem_append, List.mem_singleton] at h
              rcases h with (h | h) | h
              · exact ⟨a, by simp, h⟩
              · exact absurd h hc44
              · obtain ⟨x, hx, hcx⟩ := ih h
                exact ⟨x, by simp [hx], hcx⟩
        exact this _ (by rw [entries, hj]; exact hm)
      obtain ⟨x, hx, hcx⟩ := hex
      obtain ⟨d, hd⟩ := hent x hx
      have hlow : Str.lowerByte c ∈ Str.lower x := by
        have hclt : c < 128 := by
          rcases (isQuote_iff c).1 hcq with rfl | rfl | rfl <;> decide
        clear hd hx
        induction x using Str.lower.induct with
        | case1 => simp at hcx
        | case2 a => simp only [List.mem_singleton] at hcx; simp [Str.lower, hcx]
        | case3 a b h =>
          obtain ⟨rfl, rfl⟩ := h
          simp only [List.mem_cons, List.not_mem_nil, or_false] at hcx
          rcases hcx with rfl | rfl <;> exact absurd hclt (by decide)
        | case4 a b h ih =>
          have e : Str.lower [a, b] = Str.lowerByte a :: Str.lower [b] := by simp [Str.lower, h]
          rw [e]
          rcases List.mem_cons.1 hcx with rfl | hcx
          · simp
          · exact List.mem_cons_of_mem _ (ih hcx)
        | case5 a b c' t h ih =>
          obtain ⟨rfl, rfl, rfl⟩ := h
          rw [Str.lower, if_pos (by decide)]
          simp only [List.mem_cons] at hcx
          rcases hcx with rfl | rfl | rfl | hcx
          · exact absurd hclt (by decide)
          · exact absurd hclt (by decide)
          · exact absurd hclt (by decide)
          · exact List.mem_cons_of_mem _ (ih hcx)
        | case6 a b c' t h1 h ih =>
          obtain ⟨rfl, rfl⟩ := h
          rw [Str.lower, if_neg h1, if_pos (by decide)]
          simp only [List.mem_cons] at hcx
          rcases hcx with rfl | rfl | hcx
          · exact absurd hclt (by decide)
          · exact absurd hclt (by decide)
          · exact List.mem_cons_of_mem _ (ih (List.mem_cons.2 hcx))
        | case7 a b c' t h1 h2 ih =>
          rw [Str.lower, if_neg h1, if_neg h2]
          rcases List.mem_cons.1 hcx with rfl | hcx
          · simp
          · exact List.mem_cons_of_mem _ (ih hcx)
      have : ∀ d : Weekday, ∀ s ∈ d.spellings, (34 : Byte) ∉ s ∧ (39 : Byte) ∉ s ∧ (96 : Byte) ∉ s := by
        intro d; cases d <;> decide
      obtain ⟨t1, t2, t3⟩ := this d _ hd
      rcases (isQuote_iff c).1 hcq with rfl | rfl | rfl
      · exact t1 hlow
      · exact t2 hlow
      · exact t3 hlow
  have hclean := clean_frame hl hr hp hq ht hlen hne (noq _ (List.head_mem hne))
    (noq _ (List.getLast_mem hne))
  cases hres : parseDoW S t with
  | error e =>
    exfalso
    obtain ⟨x, hx, hd⟩ := (C12_refuses S t).1 (by rw [hres])
    obtain ⟨d, hd'⟩ := hent x hx
    exact hd d hd'
  | ok w =>
    refine ⟨w, ?_, (C12_exact S t w hres).2.2.2⟩
    simp only [assertBindDayOfWeek, hclean, hres]

example : ∀ x ∈ entries b!"Mon, 3,FRIDAY", ∃ d ∈ Weekday.all, d.NamedBy x := by
  simp only [entries]; decide

example : parseDoW (.anyRef 8) b!"Mon,Mo" = .error () := by
  rw [C12_refuses]
  exact ⟨b!"Mo", by simp only [entries]; decide, fun d => by cases d <;> decide⟩

/-- **C13.** A `TimeOfDay` built from the four digits of a clock time, or from 2400,
prints the same digits; so does one that is set to them later. -/
theorem C13_digits_survive (s : Str) (h : IsClock s) (r : TimeOfDay) :
    TimeOfDay.string (ToD [.str s]) = s ∧ TimeOfDay.string (set r (.str s)) = s :=
  ⟨clock_string h, clock_string h⟩

/-- **C13**, for a (non-zero) `time.Time`: its hour and minute are printed. -/
theorem C13_time (h m : Nat) (hh : h < 24) (hm : m < 60) :
    TimeOfDay.string (ToD [.time false h m]) = clockText h m := time_table h m hh hm

example : IsClock b!"2359" ∧ IsClock b!"0000" ∧ IsClock b!"2400" :=
  ⟨Or.inl ⟨23, 59, by decide, by decide, by decide⟩, Or.inl ⟨0, 0, by decide, by decide, by decide⟩,
    Or.inr (by decide)⟩

/-- **C14.** A timeofday value read from text is accepted only if it is one clock
time, apart from quotation marks and blanks around it; and then this is the time
that is stored. -/
theorem C14_accepts_only_clock (values : List Str) (ex : TimeOfDay)
    (h : assertBindTimeOfDay values = .ok ex) :
    ∃ v t, values = [v] ∧ IsClock t ∧ Framed t v ∧ TimeOfDay.string ex = t := by
  unfold assertBindTimeOfDay at h
  split at h
  · next v =>
    simp only at h
    split at h
    · next he =>
      simp only [Except.ok.injEq] at h
      subst h
      have hc : IsClock (Misc.unquote (Misc.condenseWHSP v)) := by
        by_cases hc : IsClock (Misc.unquote (Misc.condenseWHSP v))
        · exact hc
        · rw [toD_bad hc] at he
          rw [← he]
          exact Or.inl ⟨0, 0, by decide, by decide, by decide⟩
      refine ⟨v, _, rfl, hc, clean_inv (clock_plain hc).1 ?_ rfl, he⟩
      intro h0
      have := (clock_plain hc).2.1
      rw [h0] at this; simp at this
    · exact absurd h (by simp)
  · exact absurd h (by simp)

/-- **C14.** Every clock time is accepted, within quotation marks or white space or
not. -/
theorem C14_accepts_clock (l p t q r : Str) (hl : Spaces l) (hr : Spaces r) (hp : Quote? p)
    (hq : Quote? q) (ht : IsClock t) :
    ∃ ex, assertBindTimeOfDay [l ++ p ++ t ++ q ++ r] = .ok ex ∧ TimeOfDay.string ex = t := by
  obtain ⟨h1, h2, h3⟩ := clock_plain ht
  have hne : t ≠ [] := by rintro rfl; simp at h2
  have hclean := clean_frame hl hr hp hq h1 (by omega) hne (h3 _ (List.head_mem hne))
    (h3 _ (List.getLast_mem hne))
  refine ⟨ToD [.str t], ?_, clock_string ht⟩
  simp only [assertBindTimeOfDay, hclean, clock_string ht, if_true]

example : (assertBindTimeOfDay [b!" \"1215\" "]).toOption = some (some (4, 191)) ∧
    (assertBindTimeOfDay [b!"2460"]).toOption = none ∧
    (assertBindTimeOfDay [b!"800"]).toOption = none := by decide +kernel

/-- The claim of **C15**: text that is no clock time gives no usable time. -/
def BadTextUnusable : Prop :=
  ∀ s, ¬ IsClock s → ¬ (TimeOfDay.valid (ToD [.str s]) = true ∧ IsClock (TimeOfDay.string (ToD [.str s])))

/-- **C15** does not hold: any such text gives a valid time that prints 0000. -/
theorem C15_counterexample : ¬ BadTextUnusable := by
  intro h
  refine h b!"25:00" ?_ ⟨by decide, Or.inl ⟨0, 0, by decide, by decide, by decide +kernel⟩⟩
  intro hc
  exact absurd (clock_plain hc).2.1 (by decide)

/-- What does hold for **C15**: bad text never gives any time but 0000.  Missing: it
should give none. -/
theorem C15_only_midnight_partial (s : Str) (h : ¬ IsClock s) :
    TimeOfDay.string (ToD [.str s]) = b!"0000" ∧ TimeOfDay.valid (ToD [.str s]) = true := by
  rw [toD_bad h]; exact ⟨by decide +kernel, rfl⟩

/-- **C15** for what is no text: no argument, an argument of another type and a time that is not set
give 0000 too.  Missing: they should give no time. -/
theorem C15_other_partial :
    TimeOfDay.string (ToD []) = b!"0000" ∧ TimeOfDay.string (ToD [.other]) = b!"0000" ∧
    (∀ xs, TimeOfDay.string (ToD (.other :: xs)) = b!"0000") ∧
    ∀ h m, TimeOfDay.string (ToD [.time true h m]) = b!"0000" :=
  ⟨by decide +kernel, by decide +kernel, fun _ => by simp only [ToD, assertToD]; decide +kernel,
    fun _ _ => by simp only [ToD, assertToD, Bool.not_true, Bool.false_eq_true, if_false]; decide +kernel⟩

example : ¬ IsClock b!"2460" := by
  intro h
  have := clock_string h
  exact absurd this (by decide +kernel)

end Verif.Time
