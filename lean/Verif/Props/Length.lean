import Verif.Model.Length
import Verif.Props.Time
import Verif.Props.Levels
import Verif.Props.Net
import Verif.Props.Builders
import Verif.Props.Oid

/-!
# Lengths (C102)
-/

namespace Verif.Length
open Verif Verif.Spec

/-- The number of parts of a text with the given separator. -/
def parts (sep : Byte) (s : Str) : Nat := s.count sep + 1

theorem parts_join {c : Byte} {l : List Str} (hl : l ≠ []) (h : ∀ s ∈ l, c ∉ s) :
    parts c (Str.join [c] l) = l.length := by
  unfold parts
  induction l with
  | nil => exact absurd rfl hl
  | cons a t ih =>
    have ha : a.count c = 0 := List.count_eq_zero.2 (h a (by simp))
    cases t with
    | nil => simp [Str.join, ha]
    | cons b t =>
      have := ih (by simp) fun s hs => h s (by simp [hs])
      simp only [Str.join, List.count_append, ha, List.count_singleton_self, List.length_cons] at *
      omega

theorem join_without {c d : Byte} {l : List Str} (hd : d ≠ c) (h : ∀ s ∈ l, d ∉ s) :
    d ∉ Str.join [c] l := by
  induction l with
  | nil => simp [Str.join]
  | cons a t ih =>
    cases t with
    | nil => exact h a (by simp)
    | cons b t =>
      have := ih fun s hs => h s (by simp [hs])
      simp only [Str.join, List.mem_append, List.mem_singleton, not_or]
      exact ⟨⟨h a (by simp), hd⟩, this⟩

/-! ## Days -/

/-- The days held. -/
def daysHeld (S : Shifty 8) (r : Time.DayOfWeek) : List Weekday := Weekday.all.filter (Time.holds S r)

/-- **C102** for days: whatever was done to a set of days, its length is the number of days
it holds. -/
def DaysCounted : Prop :=
  ∀ (S : Shifty 8) (h : List Time.Call),
    Time.len S (h.foldl Time.Call.run none) = (daysHeld S (h.foldl Time.Call.run none)).length

/-- **C102** fails for days: `Day(1)`, which is no day, counts as one. -/
theorem C102_counterexample_days : ¬ DaysCounted := by
  intro h
  exact absurd (h (Shifty.anyRef 8) [.shift [.day 1#8]]) (by decide)

theorem even_run (h : List Time.Call)
    (hh : ∀ c ∈ h, ∀ x, Time.Arg.day x ∈ c.args → x &&& 1#8 = 0#8) (r : Time.DayOfWeek)
    (hr : (r.getD 0#8).getLsbD 0 = false) :
    ((h.foldl Time.Call.run r).getD 0#8).getLsbD 0 = false := by
  have even : ∀ a : Time.Arg, (∀ x, a = .day x → x &&& 1#8 = 0#8) →
      (Time.matchDoW a).getLsbD 0 = false := by
    intro a ha
    cases a with
    | int i => exact Time.matchInt_even i
    | str s => exact Time.matchLower_even _
    | day x =>
      have := congrArg (fun v : BitVec 8 => v.getLsbD 0) (ha x rfl)
      have h1 : x.getLsbD 0 = false := by simpa using this
      exact h1
    | other => rfl
  have on : ∀ (x : List Time.Arg) (v : BitVec 8), (∀ d, Time.Arg.day d ∈ x → d &&& 1#8 = 0#8) →
      v.getLsbD 0 = false → (x.foldl Time.shift1 v).getLsbD 0 = false := by
    intro x
    induction x with
    | nil => intro v _ h; exact h
    | cons a t ih =>
      intro v hx hv
      refine ih _ (fun d hd => hx d (by simp [hd])) ?_
      cases hb : (Time.shift1 v a).getLsbD 0 with
      | false => rfl
      | true =>
        rw [Time.shift1_bit, hv, even a (fun d hd => hx d (by simp [hd]))] at hb
        simp at hb
  have off : ∀ (x : List Time.Arg) (v : BitVec 8),
      v.getLsbD 0 = false → (x.foldl Time.unshift1 v).getLsbD 0 = false := by
    intro x
    induction x with
    | nil => intro v h; exact h
    | cons a t ih =>
      intro v hv
      refine ih _ ?_
      cases hb : (Time.unshift1 v a).getLsbD 0 with
      | false => rfl
      | true => rw [Time.unshift1_bit v a _ (by omega), hv] at hb; exact absurd hb.2 (by simp)
  induction h generalizing r with
  | nil => exact hr
  | cons c h ih =>
    refine ih (fun c hc => hh c (by simp [hc])) _ ?_
    have hc := hh c (by simp)
    cases c with
    | shift x => exact on x _ hc hr
    | unshift x =>
      cases r with
      | none => exact hr
      | some v => exact off x v hr

/-- What is said of the length of a word without its lowest bit. -/
def WordCounted (v : BitVec 8) : Prop :=
  ((List.range 8).filter fun i => v.getLsbD i).length =
      (Weekday.all.filter fun d => v.getLsbD (Time.idx d)).length ∧
    (((List.range 8).filter fun i => v.getLsbD i).length = 0 → Time.wordText v = b!"<invalid_days>") ∧
    (((List.range 8).filter fun i => v.getLsbD i).length ≠ 0 →
      parts 44 (Time.wordText v) = ((List.range 8).filter fun i => v.getLsbD i).length)

instance (v : BitVec 8) : Decidable (WordCounted v) := inferInstanceAs (Decidable (_ ∧ _))

theorem word_len : ∀ n : Fin 256, (BitVec.ofNat 8 n.1).getLsbD 0 = false →
    WordCounted (BitVec.ofNat 8 n.1) := by
  decide +kernel

/-- **C102** for days: after any history of `Shift` and `Unshift` calls on an unset value
the length is the number of days held; a set of length 0 prints that it is invalid, any
other one prints as many names as its length says.  Missing: `Day` values that have the
lowest bit, which belongs to no day. -/
theorem C102_days_partial (S : Shifty 8) (h : List Time.Call)
    (hh : ∀ c ∈ h, ∀ x, Time.Arg.day x ∈ c.args → x &&& 1#8 = 0#8) :
    let r := h.foldl Time.Call.run none
    Time.len S r = (daysHeld S r).length ∧
      (Time.len S r = 0 → Time.string S r = b!"<invalid_days>") ∧
      (Time.len S r ≠ 0 → parts 44 (Time.string S r) = Time.len S r) := by
  intro r
  have h0 : (r.getD 0#8).getLsbD 0 = false := even_run h hh none rfl
  have hd : daysHeld S r = Weekday.all.filter fun d => (r.getD 0#8).getLsbD (Time.idx d) := by
    unfold daysHeld
    exact List.filter_congr fun d _ => Time.holds_bit S r d
  cases hr : r with
  | none =>
    rw [hr] at hd
    rw [hd]
    exact ⟨rfl, fun _ => rfl, fun h => absurd rfl h⟩
  | some v =>
    rw [hr] at h0 hd
    rw [hd, Time.string_some, Time.len, Time.bitsOn_some]
    exact Time.word_cases (fun v => v.getLsbD 0 = false → WordCounted v) word_len v h0

example : Time.len (Shifty.anyRef 8) ([Time.Call.shift [.day (Time.Mon ||| Time.Fri), .str b!"sunday"],
    .unshift [.int 6]].foldl Time.Call.run none) = 2 := by decide

/-! ## Levels -/

/-- The levels held. -/
def levelsHeld (S : Shifty 16) (r : Levels.Inheritance) : List (Fin 10) :=
  [0, 1, 2, 3, 4, 5, 6, 7, 8, 9].filter (Levels.holds S r)

/-- **C102** for levels: whatever was done to an inheritance, its length is the number of
levels it holds, and it prints that many levels. -/
def LevelsCounted : Prop :=
  ∀ (S : Shifty 16) (x : Attr.ABTV), x.isZero = false → ∀ h : List Levels.Call,
    Levels.len S (h.foldl Levels.Call.run (Levels.Inherit x [])) =
      (levelsHeld S (h.foldl Levels.Call.run (Levels.Inherit x []))).length

/-- **C102** for the text of an inheritance. -/
def LevelsShown : Prop :=
  ∀ (S : Shifty 16) (x : Attr.ABTV), x.isZero = false → ∀ ls : List (Fin 10),
    ∀ t, x.string = some t →
    ∃ lv, Levels.string S (Levels.Inherit x (ls.map fun n => .level (Levels.const n))) =
        b!"parent[" ++ lv ++ b!"]." ++ t ∧ (93 : Byte) ∉ lv ∧
      parts 44 lv = Levels.len S (Levels.Inherit x (ls.map fun n => .level (Levels.const n)))

/-- **C102** fails for levels: `Level(1)`, which is no level, counts as one; an inheritance
without levels, of length 0, prints level 0. -/
theorem C102_counterexample_levels : ¬ LevelsCounted ∧ ¬ LevelsShown := by
  constructor
  · intro h
    exact absurd (h (Shifty.anyRef 16) (Attr.userOrGroupAttr BindUAT [.str b!"cn", .str b!"USERDN"]) (by decide)
      [.shift [.level 1#16]]) (by decide)
  · intro h
    obtain ⟨lv, _, _, h3⟩ := h (Shifty.anyRef 16)
      (Attr.userOrGroupAttr BindUAT [.str b!"cn", .str b!"USERDN"]) (by decide) [] _ rfl
    unfold parts at h3
    have : Levels.len (Shifty.anyRef 16)
      (Levels.Inherit (Attr.userOrGroupAttr BindUAT [.str b!"cn", .str b!"USERDN"]) []) = 0 := by decide
    rw [List.map_nil, this] at h3
    omega

theorem clear_run (x : Attr.ABTV) (hx : x.isZero = false) (h : List Levels.Call)
    (hh : ∀ c ∈ h, ∀ o ∈ c.ops, ∀ l, o.arg = .level l → l &&& 2049#16 = 0#16) (w : BitVec 16)
    (hw : w &&& 2049#16 = 0#16) :
    ∃ w', h.foldl Levels.Call.run (some ⟨w, x⟩) = some ⟨w', x⟩ ∧ w' &&& 2049#16 = 0#16 := by
  have str : ∀ s, Levels.assertStr s &&& 2049#16 = 0#16 := by
    intro s
    simp only [Levels.assertStr, Levels.levelNumbers, Levels.assertStrOn]
    repeat' split
    all_goals decide
  have int : ∀ i, Levels.assertInt i &&& 2049#16 = 0#16 := by
    intro s
    simp only [Levels.assertInt, Levels.levelMap, Levels.assertIntOn]
    repeat' split
    all_goals decide
  have lev : ∀ a : Levels.Arg, (∀ l, a = .level l → l &&& 2049#16 = 0#16) →
      Levels.level a &&& 2049#16 = 0#16 := by
    intro a ha
    cases a with
    | level l => exact ha l rfl
    | int i => exact int i
    | str s => exact str s
    | other => rfl
  have on : ∀ (l : List Levels.Arg) (v : BitVec 16),
      (∀ a ∈ l, ∀ z, a = Levels.Arg.level z → z &&& 2049#16 = 0#16) → v &&& 2049#16 = 0#16 →
      l.foldl Levels.shift1 v &&& 2049#16 = 0#16 := by
    intro l
    induction l with
    | nil => intro v _ h; exact h
    | cons a t ih =>
      intro v ha hv
      refine ih _ (fun b hb => ha b (by simp [hb])) ?_
      show (v ||| Levels.level a) &&& 2049#16 = 0#16
      rw [BitVec.and_comm, BitVec.and_or_distrib_left, BitVec.and_comm, hv, BitVec.and_comm,
        lev a (ha a (by simp))]
      rfl
  have off : ∀ (l : List Levels.Arg) (v : BitVec 16), v &&& 2049#16 = 0#16 →
      l.foldl Levels.unshift1 v &&& 2049#16 = 0#16 := by
    intro l
    induction l with
    | nil => intro v h; exact h
    | cons a t ih =>
      intro v hv
      refine ih _ ?_
      show (v &&& ~~~ (Levels.level a)) &&& 2049#16 = 0#16
      rw [BitVec.and_assoc, BitVec.and_comm (~~~ _), ← BitVec.and_assoc, hv]
      simp
  induction h generalizing w with
  | nil => exact ⟨w, rfl, hw⟩
  | cons c h ih =>
    have hc := hh c (by simp)
    have hh' := fun c' (hc' : c' ∈ h) => hh c' (by simp [hc'])
    cases c with
    | shift l =>
      have : Levels.Call.run (some ⟨w, x⟩) (.shift l) = some ⟨l.foldl Levels.shift1 w, x⟩ := by
        simp [Levels.Call.run, Levels.shift, Levels.isZero, hx, Levels.Inh.shift]
      rw [List.foldl_cons, this]
      exact ih hh' _ (on l w (fun a ha z hz => hc ⟨true, a⟩ (by simp [Levels.Call.ops, ha]) z hz) hw)
    | unshift l =>
      have : Levels.Call.run (some ⟨w, x⟩) (.unshift l) = some ⟨l.foldl Levels.unshift1 w, x⟩ := by
        simp [Levels.Call.run, Levels.unshift, Levels.isZero, hx, Levels.Inh.unshift]
      rw [List.foldl_cons, this]
      exact ih hh' _ (off l w hw)

theorem scan_eq (S : Shifty 16) (w : BitVec 16) :
    Levels.scan S w = ((List.range 12).filter fun i => w.getLsbD i).map fun i => BitVec.twoPow 16 i := by
  unfold Levels.scan Levels.levelBitIter
  rw [List.filter_map]
  congr 1
  apply List.filter_congr
  intro i hi
  have hi : i < 16 := by have := List.mem_range.1 hi; omega
  exact S.positive_bit _ _ hi

theorem len_scan (S : Shifty 16) (i : Levels.Inh) (hz : i.abtv.isZero = false) :
    Levels.len S (some i) = (Levels.scan S i.levels).length := by
  unfold Levels.len Levels.scan
  congr 1
  apply List.filter_congr
  intro d _
  simp [Levels.positive, Levels.isZero, hz, Levels.level]

/-- **C102** for levels: after any history of `Shift` and `Unshift` calls the length is the
number of levels held, and if there are any, the text has as many levels between its
brackets.  Missing: `Level` values that have bit 0 or 11, which belong to no level, and the
text of an inheritance without levels. -/
theorem C102_levels_partial (S : Shifty 16) (x : Attr.ABTV) (hx : x.isZero = false) (t : Str)
    (ht : x.string = some t) (h : List Levels.Call)
    (hh : ∀ c ∈ h, ∀ o ∈ c.ops, ∀ l, o.arg = .level l → l &&& 2049#16 = 0#16) :
    let r := h.foldl Levels.Call.run (Levels.Inherit x [])
    Levels.len S r = (levelsHeld S r).length ∧
      (Levels.len S r ≠ 0 → ∃ lv, Levels.string S r = b!"parent[" ++ lv ++ b!"]." ++ t ∧
        (93 : Byte) ∉ lv ∧ parts 44 lv = Levels.len S r) := by
  intro r
  obtain ⟨w, hw, hb⟩ := clear_run x hx h hh 0#16 rfl
  have hr : r = some ⟨w, x⟩ := hw
  have bit : ∀ i : Nat, (2049#16).getLsbD i = true → w.getLsbD i = false := by
    intro i hi
    have := congrArg (fun v : BitVec 16 => v.getLsbD i) hb
    simp only [BitVec.getLsbD_and, hi, Bool.and_true, BitVec.getLsbD_zero] at this
    exact this
  have b0 := bit 0 (by decide)
  have b11 := bit 11 (by decide)
  have hlen : Levels.len S r = ((List.range 12).filter fun i => w.getLsbD i).length := by
    rw [hr, len_scan S _ hx, scan_eq, List.length_map]
  have hheld : levelsHeld S r =
      [0, 1, 2, 3, 4, 5, 6, 7, 8, 9].filter fun n : Fin 10 => w.getLsbD (n.1 + 1) := by
    unfold levelsHeld
    exact List.filter_congr fun n _ => by rw [hr]; exact Levels.holds_bit S _ n hx
  refine ⟨?_, ?_⟩
  · rw [hlen, hheld, ← List.countP_eq_length_filter, ← List.countP_eq_length_filter]
    rw [show List.range 12 = [0, 1, 2, 3, 4, 5, 6, 7, 8, 9, 10, 11] from rfl]
    simp only [List.countP_cons, List.countP_nil, b0, b11, Bool.false_eq_true, if_false]
    rfl
  · rw [hlen]
    intro hne
    have hpos : w.toNat > 0 := by
      rcases Nat.eq_zero_or_pos w.toNat with e | e
      · have : w = 0#16 := BitVec.eq_of_toNat_eq e
        rw [this] at hne
        exact absurd (by simp) hne
      · exact e
    have hdig : ∀ s ∈ ((List.range 12).filter fun i => w.getLsbD i).map
        fun i => Levels.levelString (BitVec.twoPow 16 i), (44 : Byte) ∉ s ∧ (93 : Byte) ∉ s := by
      intro s hs
      obtain ⟨i, hi, rfl⟩ := List.mem_map.1 hs
      have hi := List.mem_range.1 (List.mem_filter.1 hi).1
      have : ∀ i : Fin 12, (44 : Byte) ∉ Levels.levelString (BitVec.twoPow 16 i.1) ∧
          (93 : Byte) ∉ Levels.levelString (BitVec.twoPow 16 i.1) := by decide
      exact this ⟨i, hi⟩
    refine ⟨Str.join b!"," (((List.range 12).filter fun i => w.getLsbD i).map
      fun i => Levels.levelString (BitVec.twoPow 16 i)), ?_, ?_, ?_⟩
    · rw [hr]
      simp only [Levels.string, hx, Bool.false_eq_true, if_false, ht, Option.getD_some,
        Levels.levelsString, hpos, if_true, scan_eq, List.map_map]
      rfl
    · intro hm
      exact absurd hm (join_without (by decide) fun s hs => (hdig s hs).2)
    · rw [parts_join ?_ fun s hs => (hdig s hs).1, List.length_map]
      intro e
      rw [List.map_eq_nil_iff] at e
      rw [e] at hne
      exact hne rfl

example : Levels.len (Shifty.anyRef 16) ([Levels.Call.shift [.level Levels.AllLevels], .unshift [.int 3]].foldl
    Levels.Call.run (Levels.Inherit (Attr.userOrGroupAttr BindUAT [.str b!"cn", .str b!"USERDN"]) [])) = 9 := by
  decide

/-! ## Addresses and host names -/

/-- **C102** for addresses: after any calls of `Set` the length is the number of different
acceptable addresses offered, and if there are any, the text has that many parts. -/
theorem C102_addresses (calls : List (List Str)) :
    let r := calls.foldl Net.IPAddr.set none
    r.len = (Net.expected calls.flatten).length ∧ (r.len ≠ 0 → parts 44 r.string = r.len) := by
  intro r
  have he := (Net.C23_history [] calls).1
  have hl : r.len = (Net.expected calls.flatten).length := by
    rw [← he]
    show Net.IPAddr.len r = (r.getD []).length
    cases r <;> rfl
  refine ⟨hl, fun hne => ?_⟩
  cases hr : r with
  | none => rw [hr] at hne; exact absurd rfl hne
  | some l =>
    rw [hr] at hne
    have hx : l = Net.expected calls.flatten := by
      rw [← he]
      show l = r.getD []
      rw [hr]; rfl
    show parts 44 (Str.join b!"," l) = l.length
    refine parts_join (fun e => hne (by rw [e]; rfl)) fun s hs => ?_
    rw [hx, Net.expected, Net.nubs_mem] at hs
    have := (decide_eq_true_iff.1 (List.mem_filter.1 hs).2).2
    intro hm
    rcases this with h | h
    · exact absurd (h _ hm) (by decide)
    · exact absurd (h _ hm) (by decide)

example : ([[b!"10.0.0.1", b!"x"], [b!"10.0.0.1", b!"::1"]].foldl Net.IPAddr.set none).len = 2 := by
  decide +kernel

/-- **C102** for host names: `Set` adds the number of labels offered or nothing to the
length, and a valid host name prints as many labels as its length says. -/
theorem C102_host_names (r : Net.FQDN) (args : List Str) :
    ((r.set args).Len = r.Len + (labelsOf args).length ∨ (r.set args).Len = r.Len) ∧
    (Net.Reachable r → r.valid = true → parts 46 r.string = r.Len) := by
  have hlen : ∀ f : Net.FQDN, f.Len = (f.getD []).length := fun f => by cases f <;> rfl
  refine ⟨?_, fun hr hv => ?_⟩
  · rw [hlen, hlen]
    have := Net.C24_all_or_nothing r args
    by_cases hc : (∀ a ∈ args, a.length ≤ 63 ∧ ∀ p ∈ Str.split1 46 a, IsLabel LatinLetter p) ∧
        (r.getD []).length + totalLength (labelsOf args) ≤ 253
    · rw [this.1 hc, List.length_append]; exact .inl rfl
    · rw [this.2 hc]; exact .inr rfl
  · have hl := Net.C24_labels_partial r hr
    rw [hlen, Net.FQDN.string, if_neg (by simp [hv])]
    refine parts_join ?_ fun s hs hm => ?_
    · intro e
      cases r with
      | none => exact absurd hv (by decide)
      | some l =>
        have e : l = [] := e
        rw [e] at hv
        exact absurd hv (by decide)
    · rcases (hl s hs).2.2.1 46 hm with h | h | h | h
      · exact absurd h (by decide)
      · exact absurd h (by decide)
      · exact absurd h (by decide)
      · exact absurd h (by decide)

example : Net.FQDN.Len (Net.DNS [b!"www.example", b!"com"]) = 3 := by decide +kernel

/-! ## Tables of rule methods -/

/-- The operators that go with a keyword. -/
def relsOf (allows : Rel → Bool) : List Rel := [Rel.eq, .ne, .lt, .gt, .le, .ge].filter allows

/-- **C102** for tables of bind rule methods: the length of the table of a value is the
number of operators that go with its keyword. -/
theorem C102_bind_tables (S : Shifty 8) (v : Builders.BVal) (k : BKw) (h : v.Speaks k) :
    Builders.methodsLen (Builders.brm S v) = (relsOf k.allows).length := by
  have dn : Builders.dnKw k → (relsOf k.allows).length = 2 := by
    rintro (rfl | rfl | rfl) <;> rfl
  have pair : Builders.pairKw k → (relsOf k.allows).length = 2 := by
    rintro (rfl | rfl) <;> rfl
  cases v with
  | dn d => obtain ⟨n, rfl, _, hk⟩ := h; exact (dn hk).symm
  | dns d => obtain ⟨n, rfl, _, hk⟩ := h; exact (dn hk).symm
  | uri u =>
    obtain ⟨n, rfl, hk⟩ := h
    unfold Builders.uriSpeaks at hk
    split at hk
    · rw [hk]; rfl
    · obtain ⟨_, _, _, hk⟩ := hk; exact (dn hk).symm
  | inh i => obtain ⟨n, rfl, _, hk⟩ := h; exact (pair hk).symm
  | pair a => exact (pair h.2).symm
  | ip a => rw [show k = .ip from h]; rfl
  | fqdn a => rw [show k = .dns from h]; rfl
  | dow a => rw [show k = .dayofweek from h]; rfl
  | tod a => rw [show k = .timeofday from h]; rfl
  | am a => rw [show k = .authmethod from h]; rfl
  | ssf a => rw [show k = .ssf from h]; rfl

example : (relsOf BKw.ssf.allows).length = 6 ∧ (relsOf BKw.dns.allows).length = 2 ∧
    (Builders.BVal.fqdn none).Speaks .dns := ⟨rfl, rfl, rfl⟩

/-- **C102** for tables of target rule methods, except those of filter operations.
Missing: filter operations, whose tables list `Ne` as well (C71). -/
theorem C102_target_tables_partial (v : Builders.TVal) (k : TKw) (h : v.Speaks k) :
    (v.isOp = false → Builders.methodsLen (Builders.trm v) = (relsOf k.allows).length) ∧
      (v.isOp = true → Builders.methodsLen (Builders.trm v) = 2) := by
  have dn : Builders.tdnKw k → (relsOf k.allows).length = 2 := by
    rintro (rfl | rfl | rfl) <;> rfl
  have oid : Builders.oidKw k → (relsOf k.allows).length = 2 := by
    rintro (rfl | rfl) <;> rfl
  have no : ∀ {b : Bool} {p : Prop}, b = false → b = true → p :=
    fun h h' => absurd (h.symm.trans h') (by decide)
  cases v with
  | scope s => rw [show k = .targetscope from h]; exact ⟨fun _ => rfl, no rfl⟩
  | filter s => rw [show k = .targetfilter from h]; exact ⟨fun _ => rfl, no rfl⟩
  | at_ s => rw [show k = .targetattr from h]; exact ⟨fun _ => rfl, no rfl⟩
  | ats a =>
    cases a with
    | none => exact absurd h.1 (by decide)
    | some a => rw [h.2]; exact ⟨fun _ => rfl, no rfl⟩
  | uriAts a => exact h.elim
  | oid o => obtain ⟨n, rfl, _, hk⟩ := h; exact ⟨fun _ => (oid hk).symm, no rfl⟩
  | oids o => obtain ⟨n, rfl, _, hk⟩ := h; exact ⟨fun _ => (oid hk).symm, no rfl⟩
  | dn o => obtain ⟨n, rfl, _, hk⟩ := h; exact ⟨fun _ => (dn hk).symm, no rfl⟩
  | dns o => obtain ⟨n, rfl, _, hk⟩ := h; exact ⟨fun _ => (dn hk).symm, no rfl⟩
  | afo a => exact ⟨fun e => no e rfl, fun _ => rfl⟩
  | afos a => exact ⟨fun e => no e rfl, fun _ => rfl⟩

example : (Builders.TVal.scope 1).Speaks .targetscope ∧ (relsOf TKw.targetscope.allows).length = 1 :=
  ⟨rfl, rfl⟩

/-- **C102** for tables that are not set, as that of attributes for URIs is. -/
theorem C102_no_table {ρ : Type} (m : MethodMap ρ) :
    Builders.methodsLen m = 0 ↔ ∀ t, m = some t → t = [] := by
  cases m with
  | none => exact ⟨fun _ t h => absurd h (by simp), fun _ => rfl⟩
  | some t =>
    refine ⟨fun h u hu => ?_, fun h => ?_⟩
    · cases hu; exact List.eq_nil_of_length_eq_zero h
    · rw [h t rfl]; rfl

example (a : Attr.ATs) : Builders.methodsLen (Builders.trm (.uriAts a)) = 0 := rfl

/-! ## Single values -/

/-- **C102** for single values: a value made from a text has the length 1 if the text is
fit for it, otherwise 0; a URI has the length 0 always, as documented. -/
theorem C102_single (read : Str → Option Str) (x : Str) (kb : UInt8) (u : Uri.LDAPURI) :
    (lenAT (Attr.AT x) = 1 ↔ Identifier x ∨ x = b!"*") ∧ lenAT (Attr.AT x) ≤ 1 ∧ lenAT none = 0 ∧
    (lenDN (some (DN.newDN x kb)) = 1 ↔ x ≠ []) ∧ lenDN (some (DN.newDN x kb)) ≤ 1 ∧ lenDN none = 0 ∧
    (lenOID (Oid.Ctrl read [.str x]) = 1 ↔ read x ≠ none) ∧
    (lenOID (Oid.ExtOp read [.str x]) = 1 ↔ Oid.isDotNot read x = true) ∧
    lenOID (Oid.Ctrl read [.str x]) ≤ 1 ∧ lenOID none = 0 ∧ lenURI u = 0 := by
  have one : ∀ b : Bool, ((if b then 0 else 1) = 1 ↔ b = false) ∧ (if b then 0 else 1) ≤ 1 := by decide
  have hat : Attr.AttributeType.isZero (Attr.AT x) = false ↔ Identifier x ∨ x = b!"*" := by
    rw [← Attr.C32_identifier]
    unfold Attr.AT
    by_cases h : Misc.isIdentifier x || x == b!"*"
    · rw [if_pos h]
      have h' : Misc.isIdentifier x = true ∨ x = b!"*" := by simpa using h
      refine ⟨fun _ => h', fun _ => ?_⟩
      cases x with
      | nil => exact absurd h (by decide)
      | cons a t => rfl
    · rw [if_neg h]
      refine ⟨fun e => absurd e (by decide), fun h' => absurd ?_ h⟩
      simpa using h'
  have hdn : DN.isZero (some (DN.newDN x kb)) = false ↔ x ≠ [] := by
    cases x <;> simp [DN.newDN, DN.isZero]
  have hoid : ∀ k : TargetKeyword, k ≠ 0 →
      (Oid.isZero (some (Oid.newObjectID read k [.str x]).1) = false ↔ read x ≠ none) := by
    intro k hk
    cases hr : read x with
    | none => simp [Oid.newObjectID, Oid.setOne, hr, Oid.isZero]
    | some t => simp [Oid.newObjectID, Oid.setOne, hr, Oid.isZero, hk]
  refine ⟨(one _).1.trans hat, (one _).2, rfl, (one _).1.trans hdn, (one _).2, rfl,
    (one _).1.trans (hoid _ (by decide)), ((one _).1.trans (hoid _ (by decide))).trans ?_, (one _).2, rfl, rfl⟩
  cases hr : read x <;> simp [Oid.isDotNot, hr]

example : lenAT (Attr.AT b!"cn") = 1 ∧ lenAT (Attr.AT b!"c n") = 0 ∧
    lenDN (DN.UDN b!"cn=a") = 1 ∧ lenDN (DN.UDN b!"") = 0 ∧
    lenOID (Oid.Ctrl Oid.plainReader.read [.str b!"1.3.6"]) = 1 := by decide +kernel

end Verif.Length
