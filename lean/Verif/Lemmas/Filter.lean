import Verif.Lemmas.Misc
import Verif.Lemmas.Uri
import Verif.Lemmas.Lists
import Verif.Model.Filter
import Verif.Spec.FilterOps

/-!
# Lemmas about attribute filters
-/

namespace Verif.Filter
open Verif Verif.Spec Verif.Misc Verif.Attr

/-! ## Tidy texts -/

theorem tight_of {f : Str} (h1 : ∀ c ∈ f, c ≠ 9 ∧ c ≠ 10) (h2 : Str.containsStr f b!"  " = false)
    {b : Bool} (hb : b = true → f.head? ≠ some 32) : Tight b f := by
  induction f generalizing b with
  | nil => trivial
  | cons c t ih =>
    refine ⟨(h1 c (by simp)).1, (h1 c (by simp)).2, ?_, ?_⟩
    · intro h e; exact hb h (by simp [e])
    · simp only [Str.containsStr, Bool.or_eq_false_iff] at h2
      refine ih (fun d hd => h1 d (by simp [hd])) h2.2 ?_
      intro hc hh
      have hc : c = 32 := by simpa using hc
      cases t with
      | nil => simp at hh
      | cons d t =>
        have hd : d = 32 := by simpa using hh
        subst hc hd
        have := h2.1
        simp [Str.hasPrefix] at this

theorem tight_append {s t : Str} {b : Bool} (hs : Tight b s) (hne : s ≠ [])
    (ht : Tight (s.getLast hne == 32) t) : Tight b (s ++ t) := by
  induction s generalizing b with
  | nil => exact absurd rfl hne
  | cons c s ih =>
    refine ⟨hs.1, hs.2.1, hs.2.2.1, ?_⟩
    cases s with
    | nil => exact ht
    | cons d s =>
      exact ih hs.2.2.2 (by simp) (by simpa using ht)

/-- A tidy text that begins with a character other than white space is left alone. -/
theorem condense_id {s : Str} (ha : Str.IsAscii s) (ht : Tight false s)
    (hends : ∀ hne : s ≠ [], Solid (s.head hne) ∧ Solid (s.getLast hne)) : condenseWHSP s = s := by
  have e := trim_id hends
  rw [condenseWHSP, e, nl_id ht, condenseLoop_id ha ht, e]

theorem solid_of_white : ∀ c : Byte, c < 128 → ¬ White c → Solid c := by
  intro c h1 h2
  refine ⟨h1, ?_⟩
  rw [Bool.eq_false_iff]
  intro h
  exact h2 ((isSpace1_white c).1 h)

theorem _root_.Verif.Spec.Tidy.last {f : Str} (h : Tidy f) : ∃ hne : f ≠ [], Solid (f.getLast hne) := by
  obtain ⟨t, c, e, hc⟩ := h.ends
  have hne : f ≠ [] := by rw [e]; simp
  refine ⟨hne, ?_⟩
  have : f.getLast hne = c := by subst e; simp
  rw [this]
  exact solid_of_white c (h.ascii c (by rw [e]; simp)) hc

/-- ASCII names begin with a character that is not white and hold no special bytes. -/
theorem attrName_plain {s : Str} (h : AttrName s) (ha : Str.IsAscii s) : Plain s := by
  intro c hc
  have key : ∀ c : Byte, c < 128 → (Cased c ∨ Digit c ∨ c = 59 ∨ c = 45 ∨ c = 42) → 33 ≤ c ∧ c ≤ 126 := by
    decide +kernel
  apply key c (ha c hc)
  rcases h with h | rfl
  · rcases h.2.2 c hc with x | x | x | x
    · exact Or.inl x
    · exact Or.inr (Or.inl x)
    · simp [x]
    · simp [x]
  · simp at hc; simp [hc]

theorem plain_tight {s : Str} (h : Plain s) : Tight false s := by
  induction s with
  | nil => trivial
  | cons c t ih =>
    have key : ∀ c : Byte, 33 ≤ c → c ≠ 9 ∧ c ≠ 10 ∧ c ≠ 32 := by decide +kernel
    have hc := key c (h c (by simp)).1
    refine ⟨hc.1, hc.2.1, by simp, ?_⟩
    have : (c == 32) = false := by simpa using hc.2.2
    rw [this]; exact ih fun d hd => h d (by simp [hd])

/-! ## Texts that do not straddle a byte -/

theorem hasPrefix_stop {c : Byte} {p : Str} (hc : c ∉ p) (x y : Str) :
    Str.hasPrefix (x ++ c :: y) p = Str.hasPrefix x p := by
  induction x generalizing p with
  | nil =>
    cases p with
    | nil => rfl
    | cons a p =>
      have : c ≠ a := by rintro rfl; exact hc (by simp)
      simp [Str.hasPrefix, this]
  | cons b x ih =>
    cases p with
    | nil => rfl
    | cons a p =>
      simp only [List.cons_append, Str.hasPrefix]
      rw [ih (p := p) (by intro h; exact hc (by simp [h]))]

theorem containsStr_stop {c : Byte} {p : Str} (hc : c ∉ p) (hp : p ≠ []) (x y : Str) :
    Str.containsStr (x ++ c :: y) p = (Str.containsStr x p || Str.containsStr y p) := by
  have h0 : Str.hasPrefix [] p = false := by
    cases p with
    | nil => exact absurd rfl hp
    | cons a p => rfl
  induction x with
  | nil =>
    rw [List.nil_append, Str.containsStr, Str.containsStr, h0]
    have := hasPrefix_stop hc [] y
    rw [List.nil_append, h0] at this
    rw [this]
  | cons b x ih =>
    rw [List.cons_append, Str.containsStr, ih, ← List.cons_append, hasPrefix_stop hc, Str.containsStr,
      Bool.or_assoc]

theorem hasPrefix_length {s p : Str} (h : Str.hasPrefix s p = true) : p.length ≤ s.length := by
  obtain ⟨r, rfl⟩ := Str.hasPrefix_iff.1 h
  simp

theorem countGo_stop {c : Byte} {p : Str} (hc : c ∉ p) (hp : p ≠ []) (x y : Str) (k : Nat)
    (hk : k ≤ x.length) :
    countGo p k (x ++ c :: y) = countGo p k x + countGo p 0 y := by
  induction x generalizing k with
  | nil =>
    simp at hk; subst hk
    have := hasPrefix_stop hc [] y
    have h0 : Str.hasPrefix [] p = false := by
      cases p with
      | nil => exact absurd rfl hp
      | cons a p => rfl
    rw [List.nil_append, h0] at this
    simp [countGo, this]
  | cons b x ih =>
    cases k with
    | succ k => exact ih k (by simpa using hk)
    | zero =>
      rw [List.cons_append, countGo, countGo, ← List.cons_append, hasPrefix_stop hc]
      split
      · next h =>
        have := hasPrefix_length h
        simp only [List.length_cons] at this
        rw [ih _ (by omega)]; omega
      · exact ih 0 (by omega)

theorem countStr_stop {c : Byte} {p : Str} (hc : c ∉ p) (hp : p ≠ []) (x y : Str) :
    countStr (x ++ c :: y) p = countStr x p + countStr y p := countGo_stop hc hp x y 0 (by omega)

theorem countStr_zero {s p : Str} (h : Str.containsStr s p = false) : countStr s p = 0 := by
  unfold countStr
  induction s with
  | nil => rfl
  | cons a t ih =>
    simp only [Str.containsStr, Bool.or_eq_false_iff] at h
    rw [countGo, h.1]
    exact ih h.2

theorem countGo_drop {p : Str} (x s : Str) : countGo p x.length (x ++ s) = countGo p 0 s := by
  induction x with
  | nil => rfl
  | cons a x ih => simpa [countGo] using ih

theorem hasPrefix_self (p s : Str) : Str.hasPrefix (p ++ s) p = true := Str.hasPrefix_iff.2 ⟨s, rfl⟩

theorem countStr_prefix {p s : Str} (hp : p ≠ []) : countStr (p ++ s) p = 1 + countStr s p := by
  obtain ⟨a, q, rfl⟩ := List.exists_cons_of_ne_nil hp
  unfold countStr
  rw [List.cons_append, countGo, ← List.cons_append, hasPrefix_self]
  simp only [if_true, List.length_cons, Nat.add_sub_cancel]
  rw [countGo_drop]

theorem countStr_join {c : Byte} {p : Str} (hc : c ∉ p) (hp : p ≠ []) (l : List Str) :
    countStr (Str.join [c] l) p = (l.map fun s => countStr s p).sum := by
  induction l with
  | nil => rfl
  | cons a l ih =>
    cases l with
    | nil => simp [Str.join]
    | cons b l =>
      have : Str.join [c] (a :: b :: l) = a ++ c :: Str.join [c] (b :: l) := by
        simp [Str.join]
      rw [this, countStr_stop hc hp, ih]; simp

/-! ## Splitting at two ampersands -/

theorem split2_single {s : Str} (h : Str.containsStr s b!"&&" = false) : Str.split2 38 38 s = [s] := by
  induction s with
  | nil => rfl
  | cons a t ih =>
    cases t with
    | nil => rfl
    | cons b t =>
      simp only [Str.containsStr, Str.hasPrefix, Bool.or_eq_false_iff, Bool.and_true] at h
      have hab : ¬ (a = 38 ∧ b = 38) := by
        rintro ⟨rfl, rfl⟩
        exact absurd h.1 (by decide)
      rw [Str.split2, if_neg hab, ih (by simpa [Str.containsStr, Str.hasPrefix] using h.2)]
      rfl

theorem split2_sep {s r : Str} (h : Str.containsStr s b!"&&" = false) :
    Str.split2 38 38 (s ++ 32 :: 38 :: 38 :: r) = (s ++ [32]) :: Str.split2 38 38 r := by
  induction s with
  | nil =>
    show Str.split2 38 38 (32 :: 38 :: 38 :: r) = _
    rw [Str.split2, if_neg (by decide), Str.split2, if_pos ⟨rfl, rfl⟩]; rfl
  | cons a t ih =>
    cases t with
    | nil =>
      show Str.split2 38 38 (a :: 32 :: 38 :: 38 :: r) = _
      rw [Str.split2, if_neg (by rintro ⟨_, h⟩; revert h; decide), Str.split2, if_neg (by decide),
        Str.split2, if_pos ⟨rfl, rfl⟩]; rfl
    | cons b t =>
      simp only [Str.containsStr, Str.hasPrefix, Bool.or_eq_false_iff, Bool.and_true] at h
      have hab : ¬ (a = 38 ∧ b = 38) := by
        rintro ⟨rfl, rfl⟩
        exact absurd h.1 (by decide)
      rw [List.cons_append, List.cons_append, Str.split2, if_neg hab]
      have := ih (by simpa [Str.containsStr, Str.hasPrefix] using h.2)
      rw [List.cons_append] at this
      rw [this]; rfl

/-- A leading space changes only the first piece. -/
theorem split2_space (s : Str) {x : Str} {r : List Str} (h : Str.split2 38 38 s = x :: r) :
    Str.split2 38 38 (32 :: s) = (32 :: x) :: r := by
  cases s with
  | nil => simp [Str.split2] at h; obtain ⟨rfl, rfl⟩ := h; rfl
  | cons a t => rw [Str.split2, if_neg (by rintro ⟨h, _⟩; revert h; decide), h]; rfl

theorem trim_lead (s : Str) : Str.trimSpace (32 :: s) = Str.trimSpace s := by
  have : Str.trimLeft (32 :: s) = Str.trimLeft s :=
    trimLeft_space (a := [32]) (by exact space_of1 (by decide))
  rw [Str.trimSpace, this, Str.trimSpace]

/-- The pieces of a joined list, each with spaces around it. -/
theorem split2_join {l : List Str} (hl : l ≠ []) (h : ∀ s ∈ l, Str.containsStr s b!"&&" = false)
    (ht : ∀ s ∈ l, ∀ hne : s ≠ [], Solid (s.head hne) ∧ Solid (s.getLast hne)) (hne : ∀ s ∈ l, s ≠ []) :
    (Str.split2 38 38 (Str.join b!" && " l)).map Str.trimSpace = l := by
  induction l with
  | nil => exact absurd rfl hl
  | cons a l ih =>
    have ha := trim_id (ht a (by simp))
    cases l with
    | nil =>
      rw [Str.join, split2_single (h a (by simp))]
      simp [ha]
    | cons b l =>
      have ih := ih (by simp) (fun s hs => h s (by simp [hs])) (fun s hs => ht s (by simp [hs]))
        (fun s hs => hne s (by simp [hs]))
      have e : Str.join b!" && " (a :: b :: l) = a ++ 32 :: 38 :: 38 :: 32 :: Str.join b!" && " (b :: l) := by
        simp [Str.join]
      rw [e, split2_sep (h a (by simp))]
      cases hs : Str.split2 38 38 (Str.join b!" && " (b :: l)) with
      | nil => rw [hs] at ih; cases ih
      | cons x r =>
        rw [split2_space _ hs]
        rw [hs] at ih
        simp only [List.map_cons] at ih ⊢
        rw [trim_lead, ih]
        congr 1
        have hna := hne a (by simp)
        have := trimSpace_frame (l := []) (r := [32]) .nil
          (Spaces.cons [32] [] (space_of1 (by decide)) .nil) hna
          (ht a (by simp) hna).1 (ht a (by simp) hna).2
        simpa using this

/-! ## Attribute filters -/

theorem valid_iff (af : AttributeFilter) : AttributeFilter.valid af = true ↔
    ∃ a f, af = some ⟨some a, some f⟩ ∧ a ≠ [] ∧ f ≠ [] := by
  rcases af with _ | ⟨_ | a, _ | f⟩
  · simp [AttributeFilter.valid]
  · simp [AttributeFilter.valid, SearchFilter.isZero]
  · simp [AttributeFilter.valid, AttributeType.isZero]
  · simp [AttributeFilter.valid, SearchFilter.isZero]
  · constructor
    · intro h
      refine ⟨a, f, rfl, ?_, ?_⟩ <;> rintro rfl <;>
        simp [AttributeFilter.valid, SearchFilter.isZero, AttributeType.isZero] at h
    · rintro ⟨a', f', e, h1, h2⟩
      injection e with e; injection e with e1 e2
      injection e1 with e1; injection e2 with e2; subst e1 e2
      simp [AttributeFilter.valid, SearchFilter.isZero, AttributeType.isZero, h1, h2]

theorem string_pair {a f : Str} (ha : a ≠ []) (hf : f ≠ []) :
    AttributeFilter.string (some ⟨some a, some f⟩) = pairText (a, f) := by
  have : AttributeFilter.valid (some ⟨some a, some f⟩) = true := (valid_iff _).2 ⟨a, f, rfl, ha, hf⟩
  simp [AttributeFilter.string, this, AttributeType.string, SearchFilter.string, pairText]

theorem name_no_colon {a : Str} (h : AttrName a) : (58 : Byte) ∉ a :=
  Uri.attrName_avoids h (by decide) (by decide) (by decide) (by decide) (by decide)

/-- Reading the text of a pair, for every text after the colon. -/
theorem parse_pair {a : Str} (h : AttrName a) (f : Str) :
    parseAttributeFilter (pairText (a, f)) = .ok (some ⟨some a, some f⟩) := by
  have e : pairText (a, f) = a ++ 58 :: f := by simp [pairText]
  rw [parseAttributeFilter, e, Str.cut1_append (name_no_colon h)]
  have hz : AttributeType.isZero (AT a) = false := by
    rw [(AT_some a).2 h]
    have := Uri.attrName_ne_nil h
    cases a with
    | nil => exact absurd rfl this
    | cons b t => rfl
  simp only [hz, Bool.false_eq_true, if_false]
  rw [(AT_some a).2 h]; rfl

theorem pairText_inj {a a' f f' : Str} (h : AttrName a) (h' : AttrName a')
    (e : pairText (a, f) = pairText (a', f')) : a = a' ∧ f = f' := by
  have e1 : pairText (a, f) = a ++ 58 :: f := by simp [pairText]
  have e2 : pairText (a', f') = a' ++ 58 :: f' := by simp [pairText]
  have h1 := Str.cut1_append (t := f) (name_no_colon h)
  have h2 := Str.cut1_append (t := f') (name_no_colon h')
  rw [← e1, e, e2, h2] at h1
  injection h1 with h1
  injection h1 with h1 h1'
  exact ⟨h1.symm, h1'.symm⟩

theorem label_op (o : AttributeOperation) (es : List AttributeFilter) :
    AFO.operation ⟨AttributeOperation.makeLabel o, es⟩ = if o = DelOp then DelOp else AddOp := by
  have e : ∀ l, AFO.operation ⟨l, es⟩ = AFO.operation ⟨l, []⟩ := fun _ => rfl
  rw [e]
  unfold AttributeOperation.makeLabel AttributeOperation.string
  by_cases h : o = DelOp
  · rw [if_pos h, if_pos h]; decide +kernel
  · rw [if_neg h, if_neg h]; decide +kernel

theorem map_string {ps : List Pair} (h : Set ps) :
    (ps.map ofPair).map AttributeFilter.string = ps.map pairText := by
  rw [List.map_map]
  apply List.map_congr_left
  intro p hp
  exact string_pair (Uri.attrName_ne_nil (h p hp).1) (h p hp).2

theorem string_opWith (delete : Bool) {ps : List Pair} (h : Set ps) :
    (opWith delete ps).string = opText delete ps := by
  unfold opWith AFO.string opText
  rw [label_op, map_string h]
  cases delete <;> rfl

theorem Clean.set {ps : List Pair} (h : Clean ps) : Set ps := fun p hp => by
  obtain ⟨h1, _, h3, _⟩ := h p hp
  exact ⟨h1, h3.last.1⟩

theorem ascii_append {s t : Str} (hs : Str.IsAscii s) (ht : Str.IsAscii t) : Str.IsAscii (s ++ t) := by
  intro c hc
  rcases List.mem_append.1 hc with h | h
  · exact hs c h
  · exact ht c h

/-- A text that white space clean-up leaves alone. -/
structure Neat (s : Str) : Prop where
  ascii : Str.IsAscii s
  tight : Tight false s
  ne : s ≠ []
  head : Solid (s.head ne)
  last : Solid (s.getLast ne)

theorem Neat.ends {s : Str} (h : Neat s) (hne : s ≠ []) : Solid (s.head hne) ∧ Solid (s.getLast hne) :=
  ⟨h.head, h.last⟩

theorem Neat.condense {s : Str} (h : Neat s) : condenseWHSP s = s :=
  condense_id h.ascii h.tight h.ends

theorem Neat.trim {s : Str} (h : Neat s) : Str.trimSpace s = s := trim_id h.ends

theorem solid_ne {c : Byte} (h : Solid c) : (c == 32) = false := by
  rw [beq_eq_false_iff_ne]
  rintro rfl
  exact absurd h.2 (by decide)

theorem Neat.append {s t : Str} (hs : Neat s) (ht : Neat t) : Neat (s ++ t) where
  ascii := ascii_append hs.ascii ht.ascii
  tight := tight_append hs.tight hs.ne (by rw [solid_ne hs.last]; exact ht.tight)
  ne := by simp [hs.ne]
  head := by rw [List.head_append_of_ne_nil hs.ne]; exact hs.head
  last := by rw [List.getLast_append_of_ne_nil _ ht.ne]; exact ht.last

theorem tidy_tight {f : Str} (h : Tidy f) : Tight false f := tight_of h.lines h.single (by simp)

theorem neat_pair {p : Pair} (h1 : AttrName p.1) (h2 : Str.IsAscii p.1) (h3 : Tidy p.2) :
    Neat (pairText p) := by
  obtain ⟨a, f⟩ := p
  have hp := attrName_plain h1 h2
  have hne := Uri.attrName_ne_nil h1
  obtain ⟨fne, flast⟩ := h3.last
  simp only at *
  have ec : Neat (a ++ b!":") := by
    have hp' : Plain (a ++ b!":") := by
      intro c hc
      rcases List.mem_append.1 hc with h | h
      · exact hp c h
      · simp at h; subst h; decide
    have hs := solid_of_plain hp'
    have hn : a ++ b!":" ≠ [] := by simp
    exact ⟨fun c hc => (hs c hc).1, plain_tight hp', hn, hs _ (List.head_mem hn),
      hs _ (List.getLast_mem hn)⟩
  refine ⟨ascii_append ec.ascii h3.ascii, ?_, by simp [pairText], ?_, ?_⟩
  · exact tight_append ec.tight ec.ne (by rw [solid_ne ec.last]; exact tidy_tight h3)
  · simp only [pairText]
    rw [List.head_append_of_ne_nil ec.ne]; exact ec.head
  · simp only [pairText]
    rw [List.getLast_append_of_ne_nil _ fne]; exact flast

theorem neat_join {l : List Str} (hl : l ≠ []) (h : ∀ s ∈ l, Neat s) : Neat (Str.join b!" && " l) := by
  induction l with
  | nil => exact absurd rfl hl
  | cons a l ih =>
    cases l with
    | nil => exact h a (by simp)
    | cons b l =>
      have ih := ih (by simp) fun s hs => h s (by simp [hs])
      have ha := h a (by simp)
      show Neat (a ++ b!" && " ++ Str.join b!" && " (b :: l))
      have h1 : Tight (a.getLast ha.ne == 32) b!" && " := by
        rw [solid_ne ha.last]
        refine ⟨by decide, by decide, by decide, ?_⟩
        refine ⟨by decide, by decide, by decide, ?_⟩
        refine ⟨by decide, by decide, by decide, ?_⟩
        exact ⟨by decide, by decide, by decide, trivial⟩
      have h2 := tight_append ha.tight ha.ne h1
      refine ⟨ascii_append (ascii_append ha.ascii (by decide)) ih.ascii, ?_, by simp, ?_, ?_⟩
      · refine tight_append h2 (by simp) ?_
        have : ((a ++ b!" && ").getLast (by simp)) = 32 := by
          rw [List.getLast_append_of_ne_nil _ (by simp)]; rfl
        rw [this]
        revert ih
        generalize Str.join b!" && " (b :: l) = s
        intro ih
        have hh := ih.head
        cases s with
        | nil => trivial
        | cons c t =>
          have ht := ih.tight
          refine ⟨ht.1, ht.2.1, ?_, ht.2.2.2⟩
          intro _ e
          have := solid_ne hh
          simp at this
          exact this e
      · simp only [List.append_assoc]
        rw [List.head_append_of_ne_nil ha.ne]; exact ha.head
      · rw [List.getLast_append_of_ne_nil _ ih.ne]; exact ih.last

theorem neat_pairs {ps : List Pair} (h : Clean ps) : ∀ s ∈ ps.map pairText, Neat s := by
  intro s hs
  obtain ⟨p, hp, rfl⟩ := List.mem_map.1 hs
  obtain ⟨h1, h2, h3, _⟩ := h p hp
  exact neat_pair h1 h2 h3

theorem plain_neat {s : Str} (h : Plain s) (hne : s ≠ []) : Neat s :=
  ⟨fun c hc => (solid_of_plain h c hc).1, plain_tight h, hne, solid_of_plain h _ (List.head_mem hne),
    solid_of_plain h _ (List.getLast_mem hne)⟩

theorem neat_op {delete : Bool} {ps : List Pair} (h : Clean ps) (hne : ps ≠ []) :
    Neat (opText delete ps) := by
  refine Neat.append (plain_neat ?_ ?_) (neat_join (by simpa using hne) (neat_pairs h))
  · cases delete <;> decide
  · cases delete <;> decide

theorem getLast_congr {s t : Str} (h : s = t) (h1 : s ≠ []) (h2 : t ≠ []) : s.getLast h1 = t.getLast h2 := by
  subst h; rfl

theorem join_last {l : List Str} (hl : l ≠ []) (hn : l.getLast hl ≠ []) :
    ∃ hj : Str.join b!" && " l ≠ [], (Str.join b!" && " l).getLast hj = (l.getLast hl).getLast hn := by
  induction l with
  | nil => exact absurd rfl hl
  | cons a l ih =>
    cases l with
    | nil => exact ⟨hn, rfl⟩
    | cons b l =>
      have e : (a :: b :: l).getLast hl = (b :: l).getLast (by simp) := by simp
      obtain ⟨hj, he⟩ := ih (by simp) (by rw [← e]; exact hn)
      have ej : Str.join b!" && " (a :: b :: l) = a ++ b!" && " ++ Str.join b!" && " (b :: l) := rfl
      refine ⟨by rw [ej]; simp, ?_⟩
      rw [getLast_congr ej _ (by simp), List.getLast_append_of_ne_nil _ hj, he]
      exact getLast_congr e.symm _ _

theorem noQuote_last {f : Str} (h : NoQuote f) (hne : f ≠ []) : isQuote (f.getLast hne) = false := by
  have := h f.dropLast (f.getLast hne) (List.dropLast_concat_getLast hne).symm
  rw [Bool.eq_false_iff]
  intro hq
  rcases (isQuote_iff _).1 hq with e | e | e
  · exact this.1 e
  · exact this.2.1 e
  · exact this.2.2 e

theorem unquote_id {s : Str} (hlen : 2 < s.length) (hne : s ≠ []) (h1 : isQuote (s.head hne) = false)
    (h2 : isQuote (s.getLast hne) = false) : unquote s = s := by
  have := unquote_frame (p := []) (q := []) .absent .absent (t := s) (by simpa using hlen) hne h1 h2
  simpa using this

theorem op_length {delete : Bool} {ps : List Pair} (h : Clean ps) (hne : ps ≠ []) :
    5 ≤ (opText delete ps).length := by
  have := (neat_join (l := ps.map pairText) (by simpa using hne) (neat_pairs h)).ne
  have := List.length_pos_iff.2 this
  unfold opText
  cases delete <;> simp <;> omega

theorem op_last {delete : Bool} {ps : List Pair} (h : Clean ps) (hne : ps ≠ []) (hu : Unquoted ps) :
    isQuote ((opText delete ps).getLast (neat_op h hne).ne) = false := by
  have hneat := neat_op (delete := delete) h hne
  have hl : ps.map pairText ≠ [] := by simpa using hne
  obtain ⟨l, p, rfl⟩ : ∃ l p, ps = l ++ [p] :=
    ⟨ps.dropLast, ps.getLast hne, (List.dropLast_concat_getLast hne).symm⟩
  obtain ⟨_, _, h3, _⟩ := h p (by simp)
  obtain ⟨fne, _⟩ := h3.last
  have elast : ((l ++ [p]).map pairText).getLast hl = pairText p := by simp
  have pne : pairText p ≠ [] := by simp [pairText]
  obtain ⟨hj, he⟩ := join_last hl (by rw [elast]; exact pne)
  have e1 : (opText delete (l ++ [p])).getLast hneat.ne = (pairText p).getLast pne := by
    unfold opText
    rw [List.getLast_append_of_ne_nil _ hj, he]
    exact getLast_congr elast _ _
  have e2 : (pairText p).getLast pne = p.2.getLast fne := by
    exact List.getLast_append_of_ne_nil (l := p.1 ++ b!":") (by simp) fne
  rw [e1, e2]
  exact noQuote_last (hu l p rfl) fne

theorem unquote_op {delete : Bool} {ps : List Pair} (h : Clean ps) (hne : ps ≠ [])
    (hu : Unquoted ps) : unquote (condenseWHSP (opText delete ps)) = opText delete ps := by
  have hneat := neat_op (delete := delete) h hne
  rw [hneat.condense]
  have hlen := op_length (delete := delete) h hne
  refine unquote_id (by omega) hneat.ne ?_ ?_
  · unfold opText
    cases delete <;> simp [isQuote]
  · exact op_last h hne hu

theorem preamble_op (delete : Bool) (ps : List Pair) :
    parsePreamble (opText delete ps) = .ok (opOf delete, Str.join b!" && " (ps.map pairText)) := by
  unfold parsePreamble opText opOf
  cases delete <;> simp [Str.hasPrefix]

theorem prefix_op (delete : Bool) (ps : List Pair) : hasAFOPrefix (opText delete ps) = true := by
  unfold hasAFOPrefix opText
  cases delete <;> simp [Str.hasPrefix]

theorem parseSeq_pairs {ps : List Pair} (h : Set ps) {seq : List Str} {c : Str}
    {es : List AttributeFilter} (hseq : seq.map Str.trimSpace = ps.map pairText)
    (hn : (es.map AttributeFilter.string ++ ps.map pairText).Nodup) :
    parseSeq ⟨c, es⟩ seq = .ok ⟨c, es ++ ps.map ofPair⟩ := by
  induction ps generalizing seq es with
  | nil =>
    have : seq = [] := by simpa using hseq
    subst this; simp [parseSeq]
  | cons p ps ih =>
    cases seq with
    | nil => simp at hseq
    | cons s seq =>
      simp only [List.map_cons, List.cons.injEq] at hseq
      have hp := h p (by simp)
      have hstr : AttributeFilter.string (ofPair p) = pairText p :=
        string_pair (Uri.attrName_ne_nil hp.1) hp.2
      have hpush : pushAF es (ofPair p) = es ++ [ofPair p] := by
        unfold pushAF containsText
        have hnot : pairText p ∉ es.map AttributeFilter.string := by
          intro hm
          rw [List.nodup_append] at hn
          exact hn.2.2 _ hm _ (by simp) rfl
        have hv : AttributeFilter.valid (ofPair p) = true :=
          (valid_iff _).2 ⟨p.1, p.2, rfl, Uri.attrName_ne_nil hp.1, hp.2⟩
        rw [hstr, if_neg, if_pos hv]
        intro hc
        obtain ⟨x, hx, hxe⟩ := List.any_eq_true.1 hc
        rw [← beq_iff_eq.1 hxe] at hnot
        exact hnot hx
      rw [parseSeq, hseq.1, parse_pair hp.1]
      show parseSeq ⟨c, pushAF es (ofPair p)⟩ seq = _
      rw [hpush, ih (fun q hq => h q (by simp [hq])) hseq.2]
      · simp
      · simp only [List.map_append, List.map_cons, List.map_nil, hstr, List.append_assoc,
          List.singleton_append] at hn ⊢
        exact hn

/-- Reading the text of an operation with distinct clean pairs. -/
theorem parseAFO_op {delete : Bool} {ps : List Pair} (h : Clean ps) (hne : ps ≠ [])
    (hu : Unquoted ps) (hd : ps.Nodup) : parseAFO (opText delete ps) = .ok (opWith delete ps) := by
  have hj := neat_join (l := ps.map pairText) (by simpa using hne) (neat_pairs h)
  unfold parseAFO
  rw [unquote_op h hne hu]
  have hlen := op_length (delete := delete) h hne
  simp only [show ¬ (opText delete ps).length < 5 by omega, if_false, preamble_op, hj.trim]
  have hs := split2_join (l := ps.map pairText) (by simpa using hne)
    (by
      intro s hs
      obtain ⟨p, hp, rfl⟩ := List.mem_map.1 hs
      obtain ⟨h1, _, _, h4⟩ := h p hp
      have e : pairText p = p.1 ++ 58 :: p.2 := by simp [pairText]
      rw [e, containsStr_stop (by decide) (by decide), h4, Bool.or_false]
      have h38 : (38 : Byte) ∉ p.1 :=
        Uri.attrName_avoids h1 (by decide) (by decide) (by decide) (by decide) (by decide)
      have : ∀ s : Str, (38 : Byte) ∉ s → Str.containsStr s b!"&&" = false := by
        intro s
        induction s with
        | nil => intro _; rfl
        | cons a t ih =>
          intro hm
          rw [Str.containsStr, ih (by intro h; exact hm (by simp [h])), Bool.or_false]
          have : (a == 38) = false := by
            rw [beq_eq_false_iff_ne]; rintro rfl; exact hm (by simp)
          simp [Str.hasPrefix, this]
      exact this _ h38)
    (fun s hs hne => (neat_pairs h s hs).ends hne) (fun s hs => (neat_pairs h s hs).ne)
  have hnd : (ps.map pairText).Nodup := by
    rw [List.Nodup, List.pairwise_map]
    refine hd.imp_of_mem ?_
    intro a b ha hb hab e
    have := pairText_inj (h a ha).1 (h b hb).1 e
    exact hab (Prod.ext this.1 this.2)
  exact parseSeq_pairs h.set hs (by
    show ([] ++ ps.map pairText).Nodup
    exact hnd)

end Verif.Filter
