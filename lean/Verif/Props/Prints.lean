import Verif.Props.Attr
import Verif.Props.Levels
import Verif.Props.Oid

/-!
# C122: values can be made and printed without a crash
-/

namespace Verif.Prints
open Verif Verif.Spec Verif.Attr

/-! ## What is claimed -/

/-- The pair after calls of `Set`. -/
def afterSets (r : ABTV) (xs : List (List Arg)) : ABTV := xs.foldl ABTV.set r

/-- **C122**, pairs: whatever a pair was made of and was given later, it prints. -/
def PairsPrint : Prop :=
  ∀ (k : BindKeyword) (x : List Arg) (xs : List (List Arg)), (afterSets (mkABTV k x) xs).string ≠ none

/-- **C122**, pairs that are read. -/
def ReadPairsPrint : Prop :=
  ∀ (x : Str) (bkw : List (Option BindKeyword)) (A : ABTV), parseATBTV x bkw = .ok A → A.string ≠ none

/-- **C122**, inheritances: no text reports a crash. -/
def InheritancesPrint : Prop :=
  ∀ (S : Shifty 16) (k : BindKeyword) (x : List Arg) (lvl : List Levels.Arg),
    ¬ b!"PANIC" <:+: Levels.string S (Levels.Inherit (mkABTV k x) lvl)

/-- **C122**, object identifiers. -/
def IdentifiersMade : Prop :=
  ∀ (R : Oid.DotReader) (x : Oid.Arg) (k : Oid.AnyKw), Oid.OIDOf R.read x k ≠ none

/-! ## What holds -/

/-- **C122**: a pair cannot be printed exactly if it has an attribute and a value without text. -/
theorem C122_pairs (r : ABTV) : r.string = none ↔ ∃ a, r.cell = some ⟨some a, .av none⟩ := by
  rcases r with ⟨k, _ | ⟨_ | a, _ | b | _ | s⟩⟩ <;> simp [ABTV.string, Cell.string, slotString]
  · split <;> simp
  · split <;> simp

/-- An argument that tells something: no unset value and no empty text. -/
def Tells : Arg → Prop
  | .av none => False
  | .str [] => False
  | _ => True

theorem set1_tells {c : Cell} {a : Arg} (ha : Tells a) (hc : c.v ≠ .av none) : (set1 c a).v ≠ .av none := by
  unfold set1
  split
  · split <;> exact hc
  · next a =>
    split
    · rintro h
      cases a with
      | none => exact ha
      | some a => injection h with h; cases h
    · exact hc
  · next b =>
    split
    · rintro h; cases h
    · exact hc
  · next s =>
    split
    · exact hc
    · show slotOfStr s ≠ _
      unfold slotOfStr
      split
      · rintro h; cases h
      · rintro h
        injection h with h
        cases s with
        | nil => exact ha
        | cons c s => simp [AV] at h
  · exact hc

theorem set_tells {x : List Arg} (hx : ∀ a ∈ x, Tells a) : ∀ {c : Cell}, c.v ≠ .av none → (c.set x).v ≠ .av none := by
  induction x with
  | nil => exact fun h => h
  | cons a x ih =>
    intro c hc
    exact ih (fun b hb => hx b (by simp [hb])) (set1_tells (hx a (by simp)) hc)

/-- **C122** for pairs, if no value given is unset and no text given is empty.  Missing: the others,
which give a pair that crashes when it is printed. -/
theorem C122_pairs_partial (k : BindKeyword) (x : List Arg) (xs : List (List Arg))
    (h : ∀ y ∈ x :: xs, ∀ a ∈ y, Tells a) : (afterSets (mkABTV k x) xs).string ≠ none := by
  have key : ∀ (xs : List (List Arg)) (r : ABTV), (∀ y ∈ xs, ∀ a ∈ y, Tells a) →
      (∀ c, r.cell = some c → c.v ≠ .av none) →
      ∀ c, (afterSets r xs).cell = some c → c.v ≠ .av none := by
    intro xs
    induction xs with
    | nil => exact fun _ _ h => h
    | cons y xs ih =>
      intro r hy hr
      refine ih (r.set y) (fun z hz => hy z (by simp [hz])) ?_
      intro c hc
      unfold ABTV.set at hc
      split at hc
      · next c' _ e =>
        injection hc with hc
        rw [← hc]
        exact set_tells (hy y (by simp)) (hr _ e)
      · injection hc with hc
        rw [← hc]
        exact set_tells (hy y (by simp)) (by simp)
  intro hn
  obtain ⟨a, ha⟩ := (C122_pairs _).1 hn
  refine key xs (mkABTV k x) (fun y hy => h y (by simp [hy])) ?_ _ ha rfl
  intro c hc
  unfold mkABTV at hc
  split at hc
  · injection hc with hc
    rw [← hc]
    exact set_tells (h x (by simp)) (by simp)
  · cases hc

/-- **C122** for pairs that are read: they crash exactly if nothing follows the mark `#`. Missing: that
they do not crash. -/
theorem C122_read_partial (x : Str) (bkw : List (Option BindKeyword)) (A : ABTV) (h : parseATBTV x bkw = .ok A) :
    A.string = none ↔ ∃ p, AttrName p ∧ x = p ++ b!"#" := by
  obtain ⟨p, q, rfl, hp, rfl⟩ := parse_ok.1 h
  rw [C122_pairs]
  constructor
  · rintro ⟨a, ha⟩
    simp only [Option.some.injEq, Cell.mk.injEq] at ha
    refine ⟨p, hp, ?_⟩
    have hs := ha.2
    unfold slotOf at hs
    split at hs
    · cases hs
    · injection hs with hs
      cases q with
      | nil => rfl
      | cons c q => simp [AV] at hs
  · rintro ⟨p', hp', e⟩
    have h1 := Str.cut1_append (identifier_no_hash hp) (t := q)
    have h2 := Str.cut1_append (identifier_no_hash hp') (t := [])
    rw [e, h2] at h1
    simp only [Option.some.injEq, Prod.mk.injEq] at h1
    rw [← h1.2]
    exact ⟨_, rfl⟩

theorem levelString_chars (m : List (Str × Levels.Level)) (r : Levels.Level) (P : UInt8 → Prop)
    (h : ∀ e ∈ m, ∀ c ∈ e.1, P c) : ∀ c ∈ Levels.levelStringOn m r, P c := by
  induction m with
  | nil => intro c hc; cases hc
  | cons e m ih =>
    obtain ⟨k, v⟩ := e
    intro c hc
    unfold Levels.levelStringOn at hc
    split at hc
    · exact h (k, v) (by simp) c hc
    · exact ih (fun e he => h e (by simp [he])) c hc

theorem levels_chars (S : Shifty 16) (v : BitVec 16) :
    ∀ c ∈ Levels.levelsString S v, c = 44 ∨ 48 ≤ c ∧ c ≤ 57 := by
  have hl : ∀ r, ∀ c ∈ Levels.levelString r, (c = 44 ∨ 48 ≤ c ∧ c ≤ 57) :=
    fun r => levelString_chars _ r _ (by decide +kernel)
  have hj : ∀ xs : List Str, (∀ s ∈ xs, ∀ c ∈ s, (c = 44 ∨ 48 ≤ c ∧ c ≤ 57)) →
      ∀ c ∈ Str.join b!"," xs, (c = 44 ∨ 48 ≤ c ∧ c ≤ 57) := by
    intro xs
    induction xs with
    | nil => intro _ c hc; cases hc
    | cons s xs ih =>
      intro h c hc
      cases xs with
      | nil => exact h s (by simp) c hc
      | cons t xs =>
        simp only [Str.join, List.mem_append] at hc
        rcases hc with (hc | hc) | hc
        · exact h s (by simp) c hc
        · exact Or.inl (by simpa using hc)
        · exact ih (fun s hs => h s (by simp [hs])) c hc
  unfold Levels.levelsString
  split
  · exact hj _ (by simp only [List.mem_map]; rintro s ⟨r, _, rfl⟩; exact hl r)
  · exact hj _ (by simp only [List.mem_singleton]; rintro s rfl; exact hl _)

/-- **C122** for inheritances: the text ends with the text of the pair, if the pair has one.  Missing: the
pairs that crash; `fmt` writes a report of the crash in the place of the text. -/
theorem C122_inheritances_partial (S : Shifty 16) (p : ABTV) (t : Str) (lvl : List Levels.Arg) (hz : p.isZero = false)
    (ht : p.string = some t) :
    ∃ ls : Str, (∀ c ∈ ls, c = 44 ∨ 48 ≤ c ∧ c ≤ 57) ∧
      Levels.string S (Levels.Inherit p lvl) = b!"parent[" ++ ls ++ b!"]." ++ t := by
  refine ⟨_, levels_chars S (Levels.Inh.shift ⟨0#16, ABTV.zero⟩ lvl).levels, ?_⟩
  simp only [Levels.string, Levels.Inherit, hz, Bool.false_eq_true, if_false, ht, Option.getD_some]

/-- **C122** for object identifiers: `OID` crashes exactly if the keyword is nil or one of bind rules. Missing: that it does not crash. -/
theorem C122_identifiers_partial (R : Oid.DotReader) (x : Oid.Arg) (k : Oid.AnyKw) :
    Oid.OIDOf R.read x k = none ↔ ∀ j, k ≠ .target j := by
  cases k <;> simp [Oid.OIDOf]

/-! ## What fails -/

/-- **C122** fails: a pair with an empty value crashes when it is printed, also if it was read from
`cn#`; an inheritance with this pair shows the report of the crash; `OID` crashes with a keyword of bind
rules. -/
theorem C122_counterexample : ¬ PairsPrint ∧ ¬ ReadPairsPrint ∧ ¬ InheritancesPrint ∧ ¬ IdentifiersMade := by
  refine ⟨fun h => h BindUAT [.str b!"cn", .str []] [] (by decide), fun h => ?_, fun h => ?_, fun h => ?_⟩
  · obtain ⟨A, hA, hn⟩ := C29_empty_value_counterexample
    exact h _ _ A hA hn
  · refine h (.anyRef 16) BindUAT [.at_ (AT b!"cn"), .av (AV [])] [] ?_
    decide +kernel
  · exact h Oid.plainReader (.str b!"1.3") (.bind BindUDN) rfl

/-! ## Samples -/

example : ∃ x xs, (∀ y ∈ x :: xs, ∀ a ∈ y, Tells a) ∧
    (afterSets (mkABTV BindUAT x) xs).string = some b!"cn#USERDN" :=
  ⟨[.str b!"cn"], [[.bt USERDN]], by simp [Tells], by decide⟩

example : ∃ A, parseATBTV b!"cn#" [] = .ok A := C29_empty_value_counterexample.imp fun _ h => h.1

example : (userOrGroupAttr BindUAT [.at_ (AT b!"cn"), .bt USERDN]).isZero = false ∧
    (userOrGroupAttr BindUAT [.at_ (AT b!"cn"), .bt USERDN]).string = some b!"cn#USERDN" := by decide +kernel

end Verif.Prints
