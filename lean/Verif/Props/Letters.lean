import Verif.Props.Rights
import Verif.Props.Time
import Verif.Props.Scope
import Verif.Props.Sec
import Verif.Props.Keyword
import Verif.Props.Bind
import Verif.Props.Filter
import Verif.Lemmas.Case

/-!
# Letter case of the words of the language: property C134
-/

namespace Verif.Letters
open Verif Verif.Spec Verif.Misc Verif.Levels

/-! ## Letter case and the functions on texts -/

/-- A text with its ASCII letters in lower case. -/
def low (s : Str) : Str := s.map Str.lowerByte

theorem byte_eq {c : Byte} (h : ¬ (97 ≤ c ∧ c ≤ 122)) (hu : ¬ (65 ≤ c ∧ c ≤ 90)) (a : Byte) :
    (Str.lowerByte a = c) = (a = c) := propext (Str.lowerByte_eq h a hu)

theorem lower_low (s : Str) : Str.lower (low s) = Str.lower s := by
  have e := @byte_eq
  induction s using Str.lower.induct with
  | case1 => rfl
  | case2 a => simp [low, Str.lower, lowerByte_idem]
  | case3 a b hab => obtain ⟨rfl, rfl⟩ := hab; decide
  | case4 a b hab ih =>
    have h' : ¬ (Str.lowerByte a = 0xC4 ∧ Str.lowerByte b = 0xB0) := by
      rw [e (by decide) (by decide), e (by decide) (by decide)]; exact hab
    simp only [low, List.map_cons, List.map_nil] at ih ⊢
    simp only [Str.lower, if_neg h', if_neg hab, lowerByte_idem]
  | case5 a b c t hab ih =>
    obtain ⟨rfl, rfl, rfl⟩ := hab
    simp only [low, List.map_cons] at ih ⊢
    rw [Str.lower, if_pos (by decide), Str.lower, if_pos (by decide), ih]
  | case6 a b c t h1 hab ih =>
    obtain ⟨rfl, rfl⟩ := hab
    have h' : ¬ (Str.lowerByte 0xC4 = 0xE2 ∧ Str.lowerByte 0xB0 = 0x84 ∧ Str.lowerByte c = 0xAA) :=
      fun hh => absurd hh.1 (by decide)
    simp only [low, List.map_cons] at ih ⊢
    rw [Str.lower, if_neg h', if_pos (by decide), Str.lower, if_neg h1, if_pos (by decide), ih]
  | case7 a b c t h1 h2 ih =>
    have h1' : ¬ (Str.lowerByte a = 0xE2 ∧ Str.lowerByte b = 0x84 ∧ Str.lowerByte c = 0xAA) := by
      rw [e (by decide) (by decide), e (by decide) (by decide), e (by decide) (by decide)]; exact h1
    have h2' : ¬ (Str.lowerByte a = 0xC4 ∧ Str.lowerByte b = 0xB0) := by
      rw [e (by decide) (by decide), e (by decide) (by decide)]; exact h2
    simp only [low, List.map_cons] at ih ⊢
    rw [Str.lower, if_neg h1', if_neg h2', Str.lower, if_neg h1, if_neg h2, lowerByte_idem, ih]

theorem fold_low (s : Str) : Str.fold (low s) = Str.fold s := by
  have e := @byte_eq
  induction s using Str.fold.induct with
  | case1 => rfl
  | case2 a => simp [low, Str.fold, lowerByte_idem]
  | case3 a b hab => obtain ⟨rfl, rfl⟩ := hab; decide
  | case4 a b hab ih =>
    have h' : ¬ (Str.lowerByte a = 0xC5 ∧ Str.lowerByte b = 0xBF) := by
      rw [e (by decide) (by decide), e (by decide) (by decide)]; exact hab
    simp only [low, List.map_cons, List.map_nil] at ih ⊢
    simp only [Str.fold, if_neg h', if_neg hab, lowerByte_idem]
  | case5 a b c t hab ih =>
    obtain ⟨rfl, rfl, rfl⟩ := hab
    simp only [low, List.map_cons] at ih ⊢
    rw [Str.fold, if_pos (by decide), Str.fold, if_pos (by decide), ih]
  | case6 a b c t h1 hab ih =>
    obtain ⟨rfl, rfl⟩ := hab
    have h' : ¬ (Str.lowerByte 0xC5 = 0xE2 ∧ Str.lowerByte 0xBF = 0x84 ∧ Str.lowerByte c = 0xAA) :=
      fun hh => absurd hh.1 (by decide)
    simp only [low, List.map_cons] at ih ⊢
    rw [Str.fold, if_neg h', if_pos (by decide), Str.fold, if_neg h1, if_pos (by decide), ih]
  | case7 a b c t h1 h2 ih =>
    have h1' : ¬ (Str.lowerByte a = 0xE2 ∧ Str.lowerByte b = 0x84 ∧ Str.lowerByte c = 0xAA) := by
      rw [e (by decide) (by decide), e (by decide) (by decide), e (by decide) (by decide)]; exact h1
    have h2' : ¬ (Str.lowerByte a = 0xC5 ∧ Str.lowerByte b = 0xBF) := by
      rw [e (by decide) (by decide), e (by decide) (by decide)]; exact h2
    simp only [low, List.map_cons] at ih ⊢
    rw [Str.fold, if_neg h1', if_neg h2', Str.fold, if_neg h1, if_neg h2, lowerByte_idem, ih]

theorem upper_lowerByte : ∀ c : Byte, Str.upperByte (Str.lowerByte c) = Str.upperByte c := by
  decide +kernel

theorem upper_low (s : Str) : Str.upper (low s) = Str.upper s := by
  have e := @byte_eq
  induction s using Str.upper.induct with
  | case1 => rfl
  | case2 a => simp [low, Str.upper, upper_lowerByte]
  | case3 a b t hab ih =>
    obtain ⟨rfl, rfl⟩ := hab
    simp only [low, List.map_cons] at ih ⊢
    rw [Str.upper, if_pos (by decide), Str.upper, if_pos (by decide), ih]
  | case4 a b t h1 hab ih =>
    obtain ⟨rfl, rfl⟩ := hab
    simp only [low, List.map_cons] at ih ⊢
    rw [Str.upper, if_neg (by decide), if_pos (by decide), Str.upper, if_neg (by decide), if_pos (by decide), ih]
  | case5 a b t h1 h2 ih =>
    have h1' : ¬ (Str.lowerByte a = 0xC5 ∧ Str.lowerByte b = 0xBF) := by
      rw [e (by decide) (by decide), e (by decide) (by decide)]; exact h1
    have h2' : ¬ (Str.lowerByte a = 0xC4 ∧ Str.lowerByte b = 0xB1) := by
      rw [e (by decide) (by decide), e (by decide) (by decide)]; exact h2
    simp only [low, List.map_cons] at ih ⊢
    rw [Str.upper, if_neg h1', if_neg h2', Str.upper, if_neg h1, if_neg h2, upper_lowerByte, ih]

theorem isSpace1_low : ∀ a : Byte, Str.isSpace1 (Str.lowerByte a) = Str.isSpace1 a := by decide +kernel

theorem beq_low {c : Byte} (h : ¬ (97 ≤ c ∧ c ≤ 122)) (hu : ¬ (65 ≤ c ∧ c ≤ 90)) (a : Byte) :
    (Str.lowerByte a == c) = (a == c) := by
  rw [Bool.eq_iff_iff]
  simp only [beq_iff_eq]
  exact Str.lowerByte_eq h a hu

theorem isSpace2_low (a b : Byte) : Str.isSpace2 (Str.lowerByte a) (Str.lowerByte b) = Str.isSpace2 a b := by
  unfold Str.isSpace2
  rw [beq_low (by decide) (by decide), beq_low (by decide) (by decide), beq_low (by decide) (by decide)]

theorem isSpace3_low (a b c : Byte) :
    Str.isSpace3 (Str.lowerByte a) (Str.lowerByte b) (Str.lowerByte c) = Str.isSpace3 a b c := by
  have h : ∀ c : Byte, (decide (0x80 ≤ Str.lowerByte c) && decide (Str.lowerByte c ≤ 0x8A)) =
      (decide (0x80 ≤ c) && decide (c ≤ 0x8A)) := by decide +kernel
  unfold Str.isSpace3
  rw [h]
  rw [@beq_low 0xE1 (by decide) (by decide), @beq_low 0x9A (by decide) (by decide) b,
    @beq_low 0x80 (by decide) (by decide) c, @beq_low 0xE2 (by decide) (by decide),
    @beq_low 0x80 (by decide) (by decide) b, @beq_low 0xA8 (by decide) (by decide),
    @beq_low 0xA9 (by decide) (by decide), @beq_low 0xAF (by decide) (by decide),
    @beq_low 0x81 (by decide) (by decide), @beq_low 0x9F (by decide) (by decide),
    @beq_low 0xE3 (by decide) (by decide)]

theorem trimLeft_low (s : Str) : Str.trimLeft (low s) = low (Str.trimLeft s) := by
  induction s using Str.trimLeft.induct <;>
    simp_all [low, Str.trimLeft, isSpace1_low, isSpace2_low, isSpace3_low]

theorem trimLeftRev_low (s : Str) : Str.trimLeftRev (low s) = low (Str.trimLeftRev s) := by
  induction s using Str.trimLeftRev.induct <;>
    simp_all [low, Str.trimLeftRev, isSpace1_low, isSpace2_low, isSpace3_low]

theorem low_reverse (s : Str) : low s.reverse = (low s).reverse := by simp [low]

theorem trimSpace_low (s : Str) : Str.trimSpace (low s) = low (Str.trimSpace s) := by
  unfold Str.trimSpace
  rw [trimLeft_low, ← low_reverse, trimLeftRev_low, ← low_reverse]

theorem encode_low : ∀ c : Byte, encodeByte (Str.lowerByte c) = low (encodeByte c) := by decide +kernel

theorem space_low : ∀ c : Byte, (Str.lowerByte c = 9 ∨ Str.lowerByte c = 10 ∨ Str.lowerByte c = 32) ↔
    (c = 9 ∨ c = 10 ∨ c = 32) := by decide +kernel

theorem condenseLoop_low (s : Str) : ∀ l, condenseLoop l (low s) = low (condenseLoop l s) := by
  induction s with
  | nil => intro l; rfl
  | cons c t ih =>
    intro l
    show condenseLoop l (Str.lowerByte c :: low t) = _
    rw [condenseLoop, condenseLoop]
    by_cases h : c = 9 ∨ c = 10 ∨ c = 32
    · rw [if_pos ((space_low c).2 h), if_pos h]
      cases l
      · simp [ih]; simp [low]; decide
      · simp [ih]
    · rw [if_neg (fun k => h ((space_low c).1 k)), if_neg h, encode_low, ih]
      simp [low]

theorem condense_low (s : Str) : condenseWHSP (low s) = low (condenseWHSP s) := by
  have hm : ∀ s : Str, (low s).map (fun c => if c = 10 then 32 else c) =
      low (s.map fun c => if c = 10 then 32 else c) := by
    have : ∀ c : Byte, (if Str.lowerByte c = 10 then 32 else Str.lowerByte c) =
        Str.lowerByte (if c = 10 then 32 else c) := by decide +kernel
    intro s
    simp only [low, List.map_map]
    congr 1
    funext c
    exact this c
  unfold condenseWHSP
  rw [trimSpace_low, hm, condenseLoop_low, trimSpace_low]

theorem dropQuote_low (s : Str) : dropQuote (low s) = low (dropQuote s) := by
  have : ∀ c : Byte, isQuote (Str.lowerByte c) = isQuote c := by decide +kernel
  cases s with
  | nil => rfl
  | cons c t =>
    show dropQuote (Str.lowerByte c :: low t) = _
    rw [dropQuote, dropQuote, this]
    cases isQuote c <;> simp [low]

theorem unquote_low (s : Str) : unquote (low s) = low (unquote s) := by
  unfold unquote
  rw [show (low s).length = s.length from by simp [low]]
  by_cases h : s.length ≤ 2
  · rw [if_pos h, if_pos h]
  · rw [if_neg h, if_neg h, dropQuote_low, ← low_reverse, dropQuote_low, ← low_reverse]

theorem dropSpaces_low (s : Str) : Str.dropSpaces (low s) = low (Str.dropSpaces s) := by
  have : ∀ c : Byte, decide (Str.lowerByte c ≠ 32) = decide (c ≠ 32) := by decide +kernel
  unfold Str.dropSpaces low
  rw [List.filter_map]
  congr 2
  funext c
  exact this c

theorem split1_low {c : Byte} (h : ¬ (97 ≤ c ∧ c ≤ 122)) (hu : ¬ (65 ≤ c ∧ c ≤ 90)) (s : Str) :
    Str.split1 c (low s) = (Str.split1 c s).map low := by
  induction s with
  | nil => rfl
  | cons a t ih =>
    show Str.split1 c (Str.lowerByte a :: low t) = _
    rw [Str.split1, Str.split1, ih]
    by_cases ha : a = c
    · rw [if_pos ((Str.lowerByte_eq h a hu).2 ha), if_pos ha]; rfl
    · rw [if_neg (fun k => ha ((Str.lowerByte_eq h a hu).1 k)), if_neg ha]
      cases Str.split1 c t <;> simp [Str.consHead, low]

theorem digitsVal_low (s : Str) : ∀ n, Str.digitsVal (low s) n = Str.digitsVal s n := by
  have hd : ∀ a : Byte, (48 ≤ Str.lowerByte a ∧ Str.lowerByte a ≤ 57) ↔ (48 ≤ a ∧ a ≤ 57) := by decide +kernel
  have he : ∀ a : Byte, (48 ≤ a ∧ a ≤ 57) → Str.lowerByte a = a := by decide +kernel
  induction s with
  | nil => intro n; rfl
  | cons a t ih =>
    intro n
    show Str.digitsVal (Str.lowerByte a :: low t) n = _
    rw [Str.digitsVal, Str.digitsVal]
    by_cases h : 48 ≤ a ∧ a ≤ 57
    · rw [if_pos ((hd a).2 h), if_pos h, he a h, ih]
    · rw [if_neg (fun k => h ((hd a).1 k)), if_neg h]

theorem atoiMag_low (m : Nat) (s : Str) : Str.atoiMag m (low s) = Str.atoiMag m s := by
  unfold Str.atoiMag
  rw [digitsVal_low]
  cases s <;> simp [low]

theorem atoi_low (s : Str) : Str.atoi (low s) = Str.atoi s := by
  cases s with
  | nil => rfl
  | cons a t =>
    by_cases h1 : a = 43
    · subst h1
      show Str.atoi (43 :: low t) = _
      simp [Str.atoi, atoiMag_low]
    · by_cases h2 : a = 45
      · subst h2
        show Str.atoi (45 :: low t) = _
        simp [Str.atoi, atoiMag_low]
      · have k1 : Str.lowerByte a ≠ 43 := fun k => h1 ((Str.lowerByte_eq (by decide) a (by decide)).1 k)
        have k2 : Str.lowerByte a ≠ 45 := fun k => h2 ((Str.lowerByte_eq (by decide) a (by decide)).1 k)
        have : ∀ (a : Byte) (t : Str), a ≠ 43 → a ≠ 45 → Str.atoi (a :: t) =
            ((((Str.atoiMag 9223372036854775807 (a :: t)).1 : Nat) : Int), (Str.atoiMag 9223372036854775807 (a :: t)).2) := by
          intro a t h1 h2
          unfold Str.atoi
          split
          · rename_i e; injection e with e; exact absurd e h1
          · rename_i e; injection e with e; exact absurd e h2
          · rfl
        have e := atoiMag_low 9223372036854775807 (a :: t)
        show Str.atoi (Str.lowerByte a :: low t) = _
        rw [this _ _ k1 k2, this _ _ h1 h2]
        rw [show Str.lowerByte a :: low t = low (a :: t) from rfl, e]

/-- A function that does not look at the letter case. -/
theorem same {α : Type} {f : Str → α} (h : ∀ s, f (low s) = f s) {s t : Str} (e : AnyCase s t) : f t = f s := by
  rw [← h s, ← h t]
  exact congrArg f e

theorem AnyCase.lower {s t : Str} (e : AnyCase s t) : Str.lower t = Str.lower s := same lower_low e
theorem AnyCase.fold {s t : Str} (e : AnyCase s t) : Str.fold t = Str.fold s := same fold_low e
theorem AnyCase.upper {s t : Str} (e : AnyCase s t) : Str.upper t = Str.upper s := same upper_low e
theorem AnyCase.eqFold {s t : Str} (e : AnyCase s t) (x : Str) : Str.eqFold t x = Str.eqFold s x := by
  unfold Str.eqFold; rw [AnyCase.fold e]

theorem AnyCase.eqFold' {s t : Str} (e : AnyCase s t) (x : Str) : Str.eqFold x t = Str.eqFold x s := by
  unfold Str.eqFold; rw [AnyCase.fold e]

theorem clean_same {s t : Str} (e : AnyCase s t) :
    AnyCase (unquote (condenseWHSP s)) (unquote (condenseWHSP t)) := by
  show low _ = low _
  rw [← unquote_low, ← condense_low, ← unquote_low, ← condense_low]
  exact congrArg (fun x => unquote (condenseWHSP x)) e

/-- Two lists of texts which differ in nothing but the case of ASCII letters. -/
def Alike : List Str → List Str → Prop
  | [], [] => True
  | s :: l, t :: m => AnyCase s t ∧ Alike l m
  | _, _ => False

/-! ## The property -/

/-- Arguments for rights that differ in nothing but the case of letters. -/
def RightsAlike : List Rights.Arg → List Rights.Arg → Prop
  | [], [] => True
  | .str s :: l, .str t :: m => AnyCase s t ∧ RightsAlike l m
  | a :: l, b :: m => a = b ∧ RightsAlike l m
  | _, _ => False

/-- Arguments for days that differ in nothing but the case of letters. -/
def DaysAlike : List Time.Arg → List Time.Arg → Prop
  | [], [] => True
  | .str s :: l, .str t :: m => AnyCase s t ∧ DaysAlike l m
  | a :: l, b :: m => a = b ∧ DaysAlike l m
  | _, _ => False

theorem rights_fold (S : Shifty 16) : ∀ x y : List Rights.Arg, RightsAlike x y → ∀ v,
    y.foldl (Rights.shift1 S) v = x.foldl (Rights.shift1 S) v ∧
    y.foldl (Rights.unshift1 S) v = x.foldl (Rights.unshift1 S) v := by
  intro x
  induction x with
  | nil => intro y h v; cases y <;> simp_all [RightsAlike]
  | cons a l ih =>
    intro y h v
    cases y with
    | nil => cases a <;> simp [RightsAlike] at h
    | cons b m =>
      by_cases hs : ∃ s t, a = .str s ∧ b = .str t
      · obtain ⟨s, t, rfl, rfl⟩ := hs
        obtain ⟨e, h⟩ := (by simpa [RightsAlike] using h : AnyCase s t ∧ RightsAlike l m)
        simp only [List.foldl_cons, Rights.shift1, Rights.unshift1, AnyCase.lower e]
        exact ⟨(ih m h _).1, (ih m h _).2⟩
      · have : a = b ∧ RightsAlike l m := by
          cases a <;> cases b <;> simp_all [RightsAlike]
        obtain ⟨rfl, h'⟩ := this
        simp only [List.foldl_cons]
        exact ⟨(ih m h' _).1, (ih m h' _).2⟩

/-- **C134** for rights: the names of rights are taken in any letter case. -/
theorem C134_rights (S : Shifty 16) (p : Rights.Permission) (x y : List Rights.Arg) (h : RightsAlike x y) :
    Rights.Allow S y = Rights.Allow S x ∧ Rights.Deny S y = Rights.Deny S x ∧
    Rights.shift S p y = Rights.shift S p x ∧ Rights.unshift S p y = Rights.unshift S p x ∧
    ∀ s t, AnyCase s t → Rights.positive S p (.str t) = Rights.positive S p (.str s) := by
  have f := rights_fold S x y h
  refine ⟨?_, ?_, ?_, ?_, fun s t e => ?_⟩
  · simp only [Rights.Allow, Rights.newPermission, (f _).1]
  · simp only [Rights.Deny, Rights.newPermission, (f _).1]
  · simp only [Rights.shift]; congr 1; funext c; rw [(f _).1]
  · simp only [Rights.unshift]; congr 1; funext c; rw [(f _).2]
  · cases p with
    | none => rfl
    | some c => simp only [Rights.positive, AnyCase.lower e]

example : RightsAlike [.str b!"Read", .int 4, .str b!"WRITE"] [.str b!"rEAD", .int 4, .str b!"write"] := by
  refine ⟨by decide, rfl, by decide, trivial⟩

/-- **C134** for the reader of permissions. -/
theorem C134_permission (S : Shifty 16) (a : Option Bool) (x y : List Str) (h : Alike x y) :
    Rights.unpackage S ⟨a, y⟩ = Rights.unpackage S ⟨a, x⟩ := by
  have : ∀ x y : List Str, Alike x y → ∀ acc, Rights.unpackLoop S y acc = Rights.unpackLoop S x acc := by
    intro x
    induction x with
    | nil => intro y h acc; cases y <;> simp_all [Alike]
    | cons s l ih =>
      intro y h acc
      cases y with
      | nil => simp [Alike] at h
      | cons t m =>
        obtain ⟨b, v⟩ := acc
        simp only [Rights.unpackLoop, Rights.shift1, AnyCase.lower h.1]
        split <;> exact ih m h.2 _
  simp only [Rights.unpackage, this x y h]

example : Alike [b!"Read", b!"all"] [b!"READ", b!"All"] := ⟨by decide, by decide, trivial⟩

/-- **C134** for days: the names of days are taken in any letter case. -/
theorem C134_days (S : Shifty 8) (r : Time.DayOfWeek) (x y : List Time.Arg) (h : DaysAlike x y) :
    Time.DoW y = Time.DoW x ∧ Time.shift r y = Time.shift r x ∧ Time.unshift r y = Time.unshift r x ∧
    ∀ s t, AnyCase s t → Time.parseDoW S t = Time.parseDoW S s := by
  have hm : ∀ {s t : Str}, AnyCase s t → Time.matchStrDoW t = Time.matchStrDoW s := by
    intro s t e
    simp only [Time.matchStrDoW, AnyCase.lower e]
  have f : ∀ x y : List Time.Arg, DaysAlike x y → ∀ v,
      y.foldl Time.shift1 v = x.foldl Time.shift1 v ∧ y.foldl Time.unshift1 v = x.foldl Time.unshift1 v := by
    intro x
    induction x with
    | nil => intro y h v; cases y <;> simp_all [DaysAlike]
    | cons a l ih =>
      intro y h v
      cases y with
      | nil => cases a <;> simp [DaysAlike] at h
      | cons b m =>
        by_cases hs : ∃ s t, a = .str s ∧ b = .str t
        · obtain ⟨s, t, rfl, rfl⟩ := hs
          obtain ⟨e, h⟩ := (by simpa [DaysAlike] using h : AnyCase s t ∧ DaysAlike l m)
          simp only [List.foldl_cons, Time.shift1, Time.unshift1, Time.matchDoW, hm e]
          exact ⟨(ih m h _).1, (ih m h _).2⟩
        · have : a = b ∧ DaysAlike l m := by
            cases a <;> cases b <;> simp_all [DaysAlike]
          obtain ⟨rfl, h'⟩ := this
          simp only [List.foldl_cons]
          exact ⟨(ih m h' _).1, (ih m h' _).2⟩
  have hloop : ∀ (l : List Str) v, Time.parseLoop (l.map low) v = Time.parseLoop l v := by
    intro l
    induction l with
    | nil => intro v; rfl
    | cons s l ih =>
      intro v
      have e : Time.matchStrDoW (low s) = Time.matchStrDoW s := by
        simp only [Time.matchStrDoW, lower_low]
      simp only [List.map_cons, Time.parseLoop, e, ih]
  refine ⟨?_, ?_, ?_, fun s t e => ?_⟩
  · simp only [Time.DoW, Time.shift, (f x y h _).1]
  · simp only [Time.shift, (f x y h _).1]
  · simp only [Time.unshift]; congr 1; funext c; rw [(f x y h _).2]
  · refine same (f := Time.parseDoW S) (fun s => ?_) e
    simp only [Time.parseDoW, dropSpaces_low, split1_low (c := 44) (by decide) (by decide), hloop]

example : DaysAlike [.str b!"Tues", .day Time.Mon, .str b!"FRIDAY"] [.str b!"tUES", .day Time.Mon, .str b!"friday"] :=
  ⟨by decide, rfl, by decide, trivial⟩

/-- **C134** for scopes. -/
theorem C134_scopes (s t : Str) (h : AnyCase s t) :
    SearchScope.scope (.str t) = SearchScope.scope (.str s) ∧
    SearchScope.assertTargetScope [t] = SearchScope.assertTargetScope [s] := by
  have hl : ∀ {s t : Str}, AnyCase s t → SearchScope.strToScope t = SearchScope.strToScope s := by
    intro s t e
    simp only [SearchScope.strToScope, AnyCase.lower e]
  have hc := clean_same h
  have hn : (unquote (condenseWHSP t)).length = (unquote (condenseWHSP s)).length := by
    have := congrArg List.length hc
    simpa using this
  exact ⟨hl h, by simp only [SearchScope.assertTargetScope, hl hc, hn]⟩

/-- **C134** for strength factors and authentication methods. -/
theorem C134_security (r : Sec.SecurityStrengthFactor) (names : List (Str × Sec.AuthenticationMethod))
    (nums : List (Int × Sec.AuthenticationMethod)) (s t : Str) (h : AnyCase s t) :
    Sec.SSF [.str t] = Sec.SSF [.str s] ∧ Sec.set r (.str t) = Sec.set r (.str s) ∧
    Sec.matchAuthenticationMethod nums names (.str t) = Sec.matchAuthenticationMethod nums names (.str s) := by
  have h1 : Sec.stringToIntSSF t = Sec.stringToIntSSF s := by
    simp only [Sec.stringToIntSSF, AnyCase.lower h, same atoi_low h]
  have h2 : ∀ b, Sec.ssfSet b (.str t) = Sec.ssfSet b (.str s) := fun b => by simp only [Sec.ssfSet, h1]
  refine ⟨by simp only [Sec.SSF, h2], by cases r <;> simp only [Sec.set, h2], ?_⟩
  show Sec.byName t names = Sec.byName s names
  induction names with
  | nil => rfl
  | cons e l ih =>
    obtain ⟨k, v⟩ := e
    simp only [Sec.byName, ih, AnyCase.eqFold' h]

/-- **C134** for keywords, bind types, operators and the words of bind rules. -/
theorem C134_words (m : List (UInt8 × Str)) (ops : List Cop) (s t : Str) (h : AnyCase s t) :
    matchOn m t = matchOn m s ∧ matchCOPOn ops t = matchCOPOn ops s ∧
    (∀ c, Cop.compare c (.str t) = Cop.compare c (.str s)) ∧
    Bind.wordToStack t = Bind.wordToStack s := by
  have hi : ∀ l, strInSliceFold t l = strInSliceFold s l := by
    intro l
    induction l with
    | nil => rfl
    | cons a l ih => simp only [strInSliceFold, AnyCase.eqFold h, ih]
  refine ⟨?_, ?_, fun c => hi _, ?_⟩
  · induction m with
    | nil => rfl
    | cons e l ih => simp only [matchOn, AnyCase.eqFold h, ih]
  · induction ops with
    | nil => rfl
    | cons e l ih => simp only [matchCOPOn, hi, ih]
  · simp only [Bind.wordToStack, AnyCase.eqFold h, AnyCase.upper h]

example : AnyCase b!"groupDN" b!"GroupDn" ∧ matchBKW b!"GroupDn" = BindGDN := by decide

/-- **C134** for keywords, bind types and operators, with the tables of the package. -/
theorem C134_tables (s t : Str) (h : AnyCase s t) :
    matchBKW t = matchBKW s ∧ matchTKW t = matchTKW s ∧ matchBT t = matchBT s ∧ matchCOP t = matchCOP s ∧
    (∀ es, Rules.TRs.contains es (.str t) = Rules.TRs.contains es (.str s)) ∧
    ∀ c op, (∀ s t, AnyCase s t → keywordAllows (.str t) op = keywordAllows (.str s) op) ∧
      keywordAllows c (.str t) = keywordAllows c (.str s) := by
  have hb := fun {s t : Str} (h : AnyCase s t) => (C134_words bkwMap copMap s t h).1
  have ht := fun {s t : Str} (h : AnyCase s t) => (C134_words tkwMap copMap s t h).1
  have hc := (C134_words btMap copMap s t h).2.1
  refine ⟨hb h, ht h, (C134_words btMap copMap s t h).1, hc, fun es => ?_, fun c op => ⟨fun s t h => ?_, ?_⟩⟩
  · simp only [Rules.TRs.contains, Rules.kwCandidate, Rules.containsKw, AnyCase.eqFold' h]
  · have e1 : matchBKW t = matchBKW s := hb h
    have e2 : matchTKW t = matchTKW s := ht h
    simp only [keywordAllows, e1, e2]
  · have e3 : matchCOP t = matchCOP s := hc
    simp only [keywordAllows, e3]

/-- **C134** for the values of bind rules about days, times, methods and strength factors: accepted in any letter case
or in none, and read alike. -/
theorem C134_values (env : Bind.Env) (k : BindKeyword)
    (hk : k = BindDoW ∨ k = BindToD ∨ k = BindAM ∨ k = BindSSF) (x y : List Str) (h : Alike x y) :
    Bind.readBind env k y = Bind.readBind env k x := by
  have key : ∀ (g : List Str → Levels.Outcome Bind.BExpr), (∀ s t, AnyCase s t → g [t] = g [s]) →
      (∀ l, l.length ≠ 1 → g l = .err) → g y = g x := by
    intro g h1 h2
    match x, y, h with
    | [], [], _ => rfl
    | [s], [t], h => exact h1 s t h.1
    | s :: s' :: l, t :: t' :: m, _ => rw [h2 _ (by simp), h2 _ (by simp)]
  have num : ∀ {α : Type} (f : Str → α) (str : α → Str), (∀ a, ∀ c ∈ str a, 48 ≤ c ∧ c ≤ 57) →
      ∀ s t : Str, AnyCase s t → (if str (f t) = t then (Except.ok (f t) : Except Unit α) else .error ()) =
        if str (f s) = s then .ok (f s) else .error () := by
    intro α f str hd s t e
    have hlow : ∀ s : Str, (∀ c ∈ s, 48 ≤ c ∧ c ≤ 57) → ∀ t, AnyCase s t → t = s := by
      intro s
      induction s with
      | nil => intro _ t e; cases t <;> simp_all [AnyCase]
      | cons a l ih =>
        intro hs t e
        have hb : ∀ a b : Byte, (48 ≤ a ∧ a ≤ 57) → Str.lowerByte b = Str.lowerByte a → b = a := by
          intro a b ha hab
          have h1 : ∀ a : Byte, (48 ≤ a ∧ a ≤ 57) → Str.lowerByte a = a ∧ ¬ (97 ≤ a ∧ a ≤ 122) ∧ ¬ (65 ≤ a ∧ a ≤ 90) := by
            decide +kernel
          rw [(h1 a ha).1] at hab
          exact (Str.lowerByte_eq (h1 a ha).2.1 b (h1 a ha).2.2).1 hab
        cases t with
        | nil => simp [AnyCase] at e
        | cons b m =>
          simp only [AnyCase, List.map_cons, List.cons.injEq] at e
          rw [hb a b (hs a (by simp)) e.1, ih (fun c hc => hs c (by simp [hc])) m e.2]
    by_cases h1 : str (f s) = s
    · have := hlow s (by rw [← h1]; exact hd _) t e
      subst this; rfl
    · by_cases h2 : str (f t) = t
      · have := hlow t (by rw [← h2]; exact hd _) s e.symm
        subst this; rfl
      · rw [if_neg h1, if_neg h2]
  refine key (Bind.readBind env k) (fun s t e => ?_) (fun l hl => ?_)
  · have hc := clean_same e
    rcases hk with rfl | rfl | rfl | rfl
    · show (Outcome.ofExcept (Time.assertBindDayOfWeek env.shifty [t])).map Bind.BExpr.dow = (Outcome.ofExcept (Time.assertBindDayOfWeek env.shifty [s])).map Bind.BExpr.dow
      simp only [Time.assertBindDayOfWeek]
      rw [((C134_days env.shifty none [] [] trivial).2.2.2 _ _ hc)]
    · show (Outcome.ofExcept (Time.assertBindTimeOfDay [t])).map Bind.BExpr.tod = (Outcome.ofExcept (Time.assertBindTimeOfDay [s])).map Bind.BExpr.tod
      simp only [Time.assertBindTimeOfDay]
      have := num (fun u => Time.assertStr (0, 0) u) (fun b => Time.TimeOfDay.string (some b)) (fun a c hc => by
        simp only [Time.TimeOfDay.string, Time.padDec, List.mem_append, List.mem_replicate] at hc
        rcases hc with ⟨-, rfl⟩ | hc
        · decide
        · exact Str.ofNat_digits _ c hc) _ _ hc
      simp only [Time.ToD, Time.assertToD]
      split at this <;> split at this <;> simp_all
    · show (Outcome.ofExcept (Sec.assertBindAuthenticationMethod env.names env.names' env.low [t])).map Bind.BExpr.am = (Outcome.ofExcept (Sec.assertBindAuthenticationMethod env.names env.names' env.low [s])).map Bind.BExpr.am
      have hn := (C134_security none env.names [] _ _ hc).2.2
      simp only [Sec.matchAuthenticationMethod] at hn
      simp only [Sec.assertBindAuthenticationMethod, hn, AnyCase.eqFold' hc]
    · show (Outcome.ofExcept (Sec.assertBindSecurityStrengthFactor [t])).map Bind.BExpr.ssf = (Outcome.ofExcept (Sec.assertBindSecurityStrengthFactor [s])).map Bind.BExpr.ssf
      simp only [Sec.assertBindSecurityStrengthFactor]
      rw [num (fun u => Sec.SSF [.str u]) Sec.string (fun a c hc => by
        unfold Sec.string at hc
        split at hc
        · exact Str.ofNat_digits _ c hc
        · simp only [List.mem_singleton] at hc; subst hc; decide) _ _ hc]
  · have e : ∀ l : List Str, l.length ≠ 1 → Time.assertBindDayOfWeek env.shifty l = .error () ∧
        Time.assertBindTimeOfDay l = .error () ∧
        Sec.assertBindAuthenticationMethod env.names env.names' env.low l = .error () ∧
        Sec.assertBindSecurityStrengthFactor l = .error () := by
      intro l hl
      match l, hl with
      | [], _ => exact ⟨rfl, rfl, rfl, rfl⟩
      | _ :: _ :: _, _ => exact ⟨rfl, rfl, rfl, rfl⟩
    obtain ⟨e1, e2, e3, e4⟩ := e l hl
    rcases hk with rfl | rfl | rfl | rfl
    · show (Outcome.ofExcept (Time.assertBindDayOfWeek env.shifty l)).map Bind.BExpr.dow = _
      rw [e1]; rfl
    · show (Outcome.ofExcept (Time.assertBindTimeOfDay l)).map Bind.BExpr.tod = _
      rw [e2]; rfl
    · show (Outcome.ofExcept (Sec.assertBindAuthenticationMethod env.names env.names' env.low l)).map Bind.BExpr.am = _
      rw [e3]; rfl
    · show (Outcome.ofExcept (Sec.assertBindSecurityStrengthFactor l)).map Bind.BExpr.ssf = _
      rw [e4]; rfl

example : Alike [b!" \"Sun, TUES\""] [b!" \"sun, tues\""] := ⟨by decide, trivial⟩

/-- **C134** for the word `parent`, as the function that reads inheritances takes it. -/
theorem C134_inheritance (p rest : Str) (h : AnyCase b!"parent[" p) :
    parseInheritance (p ++ rest) = parseInheritance (b!"parent[" ++ rest) := by
  have e : AnyCase (b!"parent[" ++ rest) (p ++ rest) := by
    have h' : p.map Str.lowerByte = b!"parent[".map Str.lowerByte := h
    simp only [AnyCase, List.map_append, h']
  have hl : p.length = 7 := by
    have := congrArg List.length h
    simpa using this
  have hd : (p ++ rest).drop 7 = rest := by rw [← hl]; simp
  unfold parseInheritance
  have h1 : ¬ (p ++ rest).length < 7 := by simp [hl]
  have h2 : ¬ (b!"parent[" ++ rest).length < 7 := by simp
  rw [AnyCase.lower e, hd, if_neg h1, if_neg h2]
  rfl

example : AnyCase b!"parent[" b!"Parent[" := by decide

/-- The claim for values of `userattr` rules: what is read as an inheritance is so in any letter case. -/
def ParentInAnyCase : Prop :=
  ∀ (env : Bind.Env) (s t : Str), AnyCase s t →
    ((∃ i, Bind.readBind env BindUAT [s] = .ok (.inh i)) ↔ ∃ i, Bind.readBind env BindUAT [t] = .ok (.inh i))

/-- Whether an inheritance was read. -/
def isInh : Outcome Bind.BExpr → Bool
  | .ok (.inh _) => true
  | _ => false

theorem inh_iff (r : Outcome Bind.BExpr) : (∃ i, r = .ok (.inh i)) ↔ isInh r = true := by
  constructor
  · rintro ⟨i, rfl⟩; rfl
  · intro h
    unfold isInh at h
    split at h
    · exact ⟨_, rfl⟩
    · exact absurd h (by decide)

/-- The claim for filter operations: they are accepted in any letter case or in none. -/
def OperationInAnyCase : Prop :=
  ∀ s t : Str, AnyCase s t → (Filter.parseAFO s).toBool = (Filter.parseAFO t).toBool

/-- **C134** is false for the word `parent` in a bind rule: `PARENT[1].owner#USERDN` is no inheritance. -/
theorem C134_counterexample_parent : ¬ ParentInAnyCase := by
  intro h
  have := h Bind.plainEnv b!"parent[1].owner#USERDN" b!"PARENT[1].owner#USERDN" (by decide)
  rw [inh_iff, inh_iff] at this
  revert this
  decide +kernel

/-- **C134** is false for the words `add` and `delete`. -/
theorem C134_counterexample : ¬ OperationInAnyCase := by
  intro h
  exact absurd (h b!"add=cn:(cn=a)" b!"ADD=cn:(cn=a)" (by decide)) (by decide +kernel)

end Verif.Letters
