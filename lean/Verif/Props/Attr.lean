import Verif.Lemmas.Attr
import Verif.Spec.Keyword
import Verif.Spec.Case

/-!
# C29 to C32: attribute pairs, attribute lists, attribute names
-/

namespace Verif.Attr
open Verif Verif.Spec Verif.Misc Verif.Levels

/-! ## C32 -/

/-- **C32.** A byte string is accepted as an attribute identifier exactly when it is
not empty, begins with a lower or upper case letter, ends with a letter or digit and
holds only letters, digits, semicolons and hyphens.  The code looks at single bytes,
so "letter" means a letter of ISO 8859-1. -/
theorem C32_identifier (s : Str) : isIdentifier s = true ↔ Identifier s := isIdentifier_iff s

example : Identifier b!"nsroledn;lang-en" ∧ ¬ Identifier b!"cn-" ∧ ¬ Identifier b!"2cn" := by
  refine ⟨⟨⟨110, _, rfl, by decide⟩, ⟨b!"nsroledn;lang-e", 110, rfl, by decide⟩, by decide +kernel⟩, ?_, ?_⟩
  · rintro ⟨_, ⟨t, z, e, hz⟩, _⟩
    have : (b!"cn-").getLast (by simp) = z := by simp [e]
    have : z = 45 := by rw [← this]; rfl
    subst this; revert hz; decide
  · rintro ⟨⟨a, t, e, ha⟩, _⟩
    simp at e; obtain ⟨rfl, _⟩ := e; revert ha; decide

/-- **C32** on ASCII: exactly the descriptions of RFC 4512 (plus inner semicolons). -/
theorem C32_ascii (s : Str) (h : Str.IsAscii s) : isIdentifier s = true ↔ Descr s := by
  rw [isIdentifier_iff]
  have hc : ∀ c : Byte, c < 128 → (Cased c ↔ Letter c) := by decide +kernel
  constructor
  · rintro ⟨⟨a, t, rfl, ha⟩, ⟨t', z, e, hz⟩, hall⟩
    have hza : z < 128 := h z (by rw [e]; simp)
    refine ⟨⟨a, t, rfl, (hc a (h a (by simp))).1 ha⟩, ⟨t', z, e, ?_⟩, ?_⟩
    · rcases hz with hz | hz
      · exact Or.inl ((hc z hza).1 hz)
      · exact Or.inr hz
    · intro c hcm
      rcases hall c hcm with x | x
      · exact Or.inl ((hc c (h c hcm)).1 x)
      · exact Or.inr x
  · rintro ⟨⟨a, t, rfl, ha⟩, ⟨t', z, e, hz⟩, hall⟩
    have hza : z < 128 := h z (by rw [e]; simp)
    refine ⟨⟨a, t, rfl, (hc a (h a (by simp))).2 ha⟩, ⟨t', z, e, ?_⟩, ?_⟩
    · rcases hz with hz | hz
      · exact Or.inl ((hc z hza).2 hz)
      · exact Or.inr hz
    · intro c hcm
      rcases hall c hcm with x | x
      · exact Or.inl ((hc c (h c hcm)).2 x)
      · exact Or.inr x

example : Str.IsAscii b!"objectClass" ∧ isIdentifier b!"objectClass" = true := by decide

/-- **C32**, beyond ASCII: some byte strings that are no RFC 4512 description are
accepted (here the single byte E9). -/
theorem C32_beyond_ascii : isIdentifier [0xE9] = true ∧ ¬ Descr [0xE9] := by
  refine ⟨by decide, ?_⟩
  rintro ⟨⟨a, t, e, ha⟩, _⟩
  simp at e; obtain ⟨rfl, _⟩ := e; revert ha; decide

/-! ## C29 -/

/-- The part after the number sign names a bind type, in any letter case. -/
def BindTypeText (b : BTy) (q : Str) : Prop := Str.fold q = Str.fold b.name

instance (b : BTy) (q : Str) : Decidable (BindTypeText b q) := inferInstanceAs (Decidable (_ = _))

/-- The bind type constant of a name. -/
def btConst : BTy → BindType
  | .USERDN => USERDN | .GROUPDN => GROUPDN | .ROLEDN => ROLEDN
  | .SELFDN => SELFDN | .LDAPURL => LDAPURL

private theorem bt_mem (b : BTy) : (btConst b, b.name) ∈ btMap := by cases b <;> decide
private theorem bt_of_mem {e : UInt8 × Str} (h : e ∈ btMap) : ∃ b, e = (btConst b, b.name) := by
  simp only [btMap, List.mem_cons, List.not_mem_nil, or_false] at h
  rcases h with rfl | rfl | rfl | rfl | rfl
  · exact ⟨.USERDN, rfl⟩
  · exact ⟨.ROLEDN, rfl⟩
  · exact ⟨.SELFDN, rfl⟩
  · exact ⟨.GROUPDN, rfl⟩
  · exact ⟨.LDAPURL, rfl⟩

theorem matchBT_text {b : BTy} {q : Str} (h : BindTypeText b q) : matchBT q = btConst b :=
  matchOn_of_mem bt_distinct (bt_mem b) ((eqFold_iff _ _).2 h)

theorem matchBT_none {q : Str} (h : ∀ b, ¬ BindTypeText b q) : matchBT q = 0 := by
  apply matchOn_none
  intro e he
  obtain ⟨b, rfl⟩ := bt_of_mem he
  cases hf : Str.eqFold q (btConst b, b.name).2 with
  | false => rfl
  | true => exact absurd ((eqFold_iff _ _).1 hf) (h b)

theorem btConst_ne (b : BTy) : btConst b ≠ 0 := by cases b <;> decide
private theorem btConst_string (b : BTy) : BindType.string (btConst b) = b.name := by
  cases b <;> decide

/-- The full claim of C29 about complete pairs: whatever complete pair (one that
prints) is made by `UAT` or `GAT` from an attribute and a value, the text parses to a
pair with the same text; and an empty value is refused. -/
def PairRoundTrip : Prop :=
  (∀ (kw : BindKeyword) (x : List Arg) (t : Str),
    (∃ p q, AttrName p ∧ q ≠ [] ∧ x = [.at_ (AT p), .av (AV q)]) →
    (userOrGroupAttr kw x).string = some t →
    ∃ A, parseATBTV t [some kw] = .ok A ∧ A.string = some t) ∧
  ∀ p, AttrName p → ∀ bkw, parseATBTV (p ++ [35]) bkw = .error ()

/-- **C29, negation.** The value `userdn` prints as `manager#userdn`, which parses to
the bind type and prints as `manager#USERDN`. -/
theorem C29_counterexample : ¬ PairRoundTrip := by
  rintro ⟨h, _⟩
  obtain ⟨A, hA, ht⟩ := h BindUAT [.at_ (AT b!"manager"), .av (AV b!"userdn")] b!"manager#userdn"
    ⟨b!"manager", b!"userdn", Or.inl ((isIdentifier_iff _).1 (by decide)), by decide, rfl⟩ (by decide)
  obtain ⟨p, q, e, hp, rfl⟩ := parse_ok.1 hA
  have e2 := Str.cut1_append (identifier_no_hash hp) (t := q)
  rw [← e] at e2
  have : Str.cut1 35 b!"manager#userdn" = some (b!"manager", b!"userdn") := by decide
  rw [this] at e2
  simp only [Option.some.injEq, Prod.mk.injEq] at e2
  obtain ⟨rfl, rfl⟩ := e2
  exact absurd ht (by decide)

/-- **C29, negation** of the second half: the text `cn#` is accepted, and printing the
result panics. -/
theorem C29_empty_value_counterexample :
    ∃ A, parseATBTV b!"cn#" [] = .ok A ∧ A.string = none := by
  refine ⟨⟨BindUAT, some ⟨some (some b!"cn"), .av none⟩⟩, ?_, by decide⟩
  exact parse_ok.2 ⟨b!"cn", [], rfl, Or.inl ((isIdentifier_iff _).1 (by decide)), by decide⟩

/-- **C29, part.** For every attribute and every bind type in any letter case the text
parses to the pair of this attribute and this bind type, which prints with the bind
type in capitals; hence the text of a complete attribute/bind-type pair round-trips.
For every attribute and every value that is not empty and no bind type name, the text
parses to this attribute and value and prints the same.
Missing: values that are bind type names in another spelling (they become the bind
type and are printed in capitals), and the refusal of an empty value. -/
theorem C29_round_trip_partial (p q : Str) (bkw : List (Option BindKeyword)) (hp : AttrName p) :
    (∀ b, BindTypeText b q →
      ∃ A, parseATBTV (p ++ 35 :: q) bkw = .ok A ∧
        A.cell = some ⟨some (some p), .bt (btConst b)⟩ ∧ A.string = some (p ++ 35 :: b.name)) ∧
    ((∀ b, ¬ BindTypeText b q) → q ≠ [] →
      ∃ A, parseATBTV (p ++ 35 :: q) bkw = .ok A ∧
        A.cell = some ⟨some (some p), .av (some q)⟩ ∧ A.string = some (p ++ 35 :: q)) := by
  constructor
  · intro b hb
    refine ⟨_, parse_ok.2 ⟨p, q, rfl, hp, rfl⟩, ?_, ?_⟩
    · simp [slotOf, matchBT_text hb, btConst_ne]
    · simp [ABTV.string, Cell.string, slotOf, matchBT_text hb, btConst_ne, slotString,
        AttributeType.string, btConst_string]
  · intro hb hq
    have hl : 0 < q.length := List.length_pos_iff.2 hq
    refine ⟨_, parse_ok.2 ⟨p, q, rfl, hp, rfl⟩, ?_, ?_⟩
    · simp [slotOf, matchBT_none hb, AV, hl]
    · simp [ABTV.string, Cell.string, slotOf, matchBT_none hb, AV, hl, slotString,
        AttributeType.string, hq]

/-- **C29**, complete pairs made by the constructors with a bind type: the printed text
parses back to the same pair. -/
theorem C29_bind_type (p : Str) (b : BTy) (kw : BindKeyword) (hk : kw = BindUAT ∨ kw = BindGAT)
    (hp : AttrName p) :
    ∃ t, (userOrGroupAttr kw [.at_ (AT p), .bt (btConst b)]).string = some t ∧
      t = p ++ 35 :: b.name ∧
      parseATBTV t [some kw] = .ok (userOrGroupAttr kw [.at_ (AT p), .bt (btConst b)]) := by
  refine ⟨p ++ 35 :: b.name, ?_, rfl, ?_⟩
  · simp [userOrGroupAttr, Cell.set, set1, ABTV.string, Cell.string, (AT_some p).2 hp, slotString,
      btConst_ne, AttributeType.string, btConst_string]
  · rw [parse_ok]
    refine ⟨p, b.name, rfl, hp, ?_⟩
    have : assertATBTVBindKeyword [some kw] = kw := by
      rcases hk with rfl | rfl <;> decide
    rw [this]
    simp [userOrGroupAttr, Cell.set, set1, (AT_some p).2 hp, slotOf, matchBT_text (b := b) rfl,
      btConst_ne]

/-- **C29**, refusal: text is accepted exactly when it has a number sign and the part
before the first one is an attribute name. -/
theorem C29_refused (x : Str) (bkw : List (Option BindKeyword)) :
    parseATBTV x bkw = .error () ↔ ¬ ∃ p q, x = p ++ 35 :: q ∧ AttrName p := by
  constructor
  · rintro h ⟨p, q, rfl, hp⟩
    rw [parse_ok.2 ⟨p, q, rfl, hp, rfl⟩] at h; cases h
  · intro h
    cases hr : parseATBTV x bkw with
    | error e => rfl
    | ok A =>
      obtain ⟨p, q, rfl, hp, _⟩ := parse_ok.1 hr
      exact absurd ⟨p, q, rfl, hp⟩ h

example : AttrName b!"manager" ∧ BindTypeText .USERDN b!"UserDN" ∧
    (∀ b, ¬ BindTypeText b b!"uid=frank") := by
  refine ⟨Or.inl ((isIdentifier_iff _).1 (by decide)), by decide, ?_⟩
  intro b; cases b <;> decide

/-! ## C30 -/

/-- The full claim of C30: by every route a parsed expression has the keyword asked
for. -/
def KeywordKept : Prop :=
  (∀ (r : ABTV) (x : Str) (kw : BindKeyword) (A : ABTV), kw = BindUAT ∨ kw = BindGAT →
    r.parse x [some kw] = .ok A → A.keyword = kw) ∧
  (∀ (v : Str) (kw : BindKeyword) (i : Inheritance), kw = BindUAT ∨ kw = BindGAT →
    assertBindUGAttr (U := Unit) (fun _ _ => .error ()) [v] kw = .ok (.inh i) →
    keyword i = some kw)

/-- **C30, negation**: `Parse` with `groupattr` yields `userattr`. -/
theorem C30_counterexample : ¬ KeywordKept := by
  rintro ⟨h, _⟩
  have := h ABTV.zero b!"cn#USERDN" BindGAT _ (Or.inr rfl)
    (parse_ok.2 ⟨b!"cn", b!"USERDN", rfl, Or.inl ((isIdentifier_iff _).1 (by decide)), rfl⟩)
  exact absurd this (by decide)

/-- **C30, negation** for inheritance in a bind rule: the keyword `groupattr` of the
rule is dropped. -/
theorem C30_inheritance_counterexample :
    ∃ i, assertBindUGAttr (U := Unit) (fun _ _ => .error ()) [b!"parent[0].cn#USERDN"] BindGAT =
        .ok (.inh i) ∧ keyword i = some BindUAT := by
  refine ⟨some ⟨Level0, ⟨BindUAT, some ⟨some (some b!"cn"), .bt USERDN⟩⟩⟩, ?_, by decide⟩
  have h1 : unquote (condenseWHSP b!"parent[0].cn#USERDN") = b!"parent[0].cn#USERDN" := by
    decide +kernel
  have h2 : parseInheritance b!"parent[0].cn#USERDN" =
      .ok (some ⟨Level0, ⟨BindUAT, some ⟨some (some b!"cn"), .bt USERDN⟩⟩⟩) := by rfl
  have h3 : ¬ Str.hasPrefix b!"parent[0].cn#USERDN" LocalScheme = true := by decide
  have h4 : Str.hasPrefix b!"parent[0].cn#USERDN" b!"parent[" = true := by decide
  simp only [assertBindUGAttr]
  rw [h1, if_neg h3, if_pos h4, h2]; rfl

/-- **C30.** Whatever is passed as keywords, a pair that was read has the keyword
`groupattr` if this is the first one, otherwise the documented default `userattr`, in its
own field as well as from `Keyword`. -/
theorem C30_default (x : Str) (bkw : List (Option BindKeyword)) (A : ABTV) (h : parseATBTV x bkw = .ok A) :
    (bkw.head? = some (some BindGAT) → A.kw = BindGAT ∧ A.keyword = BindGAT) ∧
    (bkw.head? ≠ some (some BindGAT) → A.kw = BindUAT ∧ A.keyword = BindUAT) := by
  obtain ⟨p, q, _, _, rfl⟩ := parse_ok.1 h
  constructor
  · intro hb
    match bkw, hb with
    | some _ :: _, hb =>
      simp only [List.head?_cons, Option.some.injEq] at hb
      subst hb
      exact ⟨rfl, rfl⟩
  · intro hb
    match bkw, hb with
    | [], _ => exact ⟨rfl, rfl⟩
    | none :: _, _ => exact ⟨rfl, rfl⟩
    | some k :: _, hb =>
      simp only [List.head?_cons, ne_eq, Option.some.injEq] at hb
      simp only [assertATBTVBindKeyword, if_neg hb, ABTV.keyword, true_and]
      exact if_neg (by decide)

example : ∃ A, parseATBTV b!"cn#USERDN" [some BindUDN] = .ok A ∧ A.kw = BindUAT :=
  have h : parseATBTV b!"cn#USERDN" [some BindUDN] = .ok ⟨BindUAT, some ⟨some (some b!"cn"), .bt USERDN⟩⟩ := by rfl
  ⟨_, h, ((C30_default _ _ _ h).2 (by decide)).1⟩

/-- **C30, part.** `parseATBTV` itself keeps either keyword; a bind rule whose value is
an attribute pair keeps either keyword; `Parse` keeps `userattr`; a bind rule with an
inheritance keeps `userattr`.
Missing: `groupattr` through `AttributeBindTypeOrValue.Parse` and through an
inheritance. -/
theorem C30_keyword_partial (kw : BindKeyword) (hk : kw = BindUAT ∨ kw = BindGAT) :
    (∀ x A, parseATBTV x [some kw] = .ok A → A.keyword = kw) ∧
    (∀ (U : Type) (uri : Str → BindKeyword → Except Unit U) v A,
      assertBindUGAttr uri [v] kw = .ok (.pair A) → A.keyword = kw) ∧
    (∀ r x A, ABTV.parse r x [some BindUAT] = .ok A → A.keyword = BindUAT) ∧
    (∀ (U : Type) (uri : Str → BindKeyword → Except Unit U) v i,
      assertBindUGAttr uri [v] BindUAT = .ok (.inh i) → keyword i = some BindUAT) := by
  have h1 : ∀ x A, parseATBTV x [some kw] = .ok A → A.keyword = kw := by
    intro x A h
    obtain ⟨p, q, _, _, rfl⟩ := parse_ok.1 h
    rcases hk with rfl | rfl <;> rfl
  refine ⟨h1, ?_, ?_, ?_⟩
  · intro U uri v A h
    simp only [assertBindUGAttr] at h
    split at h
    · cases hu : uri (unquote (condenseWHSP v)) kw <;>
        simp [hu, Outcome.ofExcept, Outcome.map] at h
    · split at h
      · cases hp : parseInheritance (unquote (condenseWHSP v)) <;> simp [hp, Outcome.map] at h
      · cases hp : parseATBTV (unquote (condenseWHSP v)) [some kw] with
        | error => simp [hp, Outcome.ofExcept, Outcome.map] at h
        | ok B =>
          simp [hp, Outcome.ofExcept, Outcome.map] at h
          subst h; exact h1 _ _ hp
  · intro r x A h
    obtain ⟨p, q, _, _, rfl⟩ := parse_ok.1 h
    rfl
  · intro U uri v i h
    simp only [assertBindUGAttr] at h
    split at h
    · cases hu : uri (unquote (condenseWHSP v)) BindUAT <;>
        simp [hu, Outcome.ofExcept, Outcome.map] at h
    · split at h
      · cases hp : parseInheritance (unquote (condenseWHSP v)) with
        | panic => simp [hp, Outcome.map] at h
        | err => simp [hp, Outcome.map] at h
        | ok j =>
          simp [hp, Outcome.map] at h
          subst h
          unfold parseInheritance at hp
          split at hp
          · cases hp
          · split at hp
            · cases hp
            · unfold parseRaw at hp
              split at hp
              · cases hp
              · rename_i lv after _
                unfold parseAfter at hp
                split at hp
                · cases hp
                · split at hp
                  · cases hp
                  · simp only [parseRest] at hp
                    split at hp
                    · cases hp
                    · split at hp
                      · cases hp
                      · rename_i hA
                        obtain ⟨p, q, _, _, rfl⟩ := parse_ok.1 hA
                        cases hp
                        rfl
      · cases hp : parseATBTV (unquote (condenseWHSP v)) [some BindUAT] <;>
          simp [hp, Outcome.ofExcept, Outcome.map] at h

example : (BindGAT = BindUAT ∨ BindGAT = BindGAT) ∧
    ∃ A, parseATBTV b!"cn#ROLEDN" [some BindGAT] = .ok A :=
  ⟨Or.inr rfl, _, parse_ok.2 ⟨b!"cn", b!"ROLEDN", rfl,
    Or.inl ((isIdentifier_iff _).1 (by decide)), rfl⟩⟩

/-! ## C31 -/

/-- A call on an attribute list. -/
inductive ListCall where
  | push (x : List PushArg)
  | pop

def ListCall.run (eq : Str → Str → Bool) (r : ATs) : ListCall → ATs
  | .push x => r.push eq x
  | .pop => r.pop

/-- The list after the constructor and a history of calls. -/
def listAfter (eq : Str → Str → Bool) (init : List PushArg) (h : List ListCall) :
    List AttributeType := (h.foldl (ListCall.run eq) (TAs eq init)).entries

/-- No two entries at different places have the same text up to letter case. -/
def NoTwice (eq : Str → Str → Bool) (l : List AttributeType) : Prop :=
  l.Pairwise fun a b => eq (AttributeType.string a) (AttributeType.string b) = false

/-- The full claim of C31. -/
def NoDuplicates : Prop := ∀ (E : EqualFold) init h, NoTwice E.eq (listAfter E.eq init h)

/-- **C31, negation**: `TAs("cn", "cn")` holds `cn` twice; the push policy was made
from the empty zero value. -/
theorem C31_counterexample : ¬ NoDuplicates := by
  intro h
  have := h EqualFold.ref [.str b!"cn", .str b!"cn"] []
  have e : listAfter EqualFold.ref.eq [.str b!"cn", .str b!"cn"] [] = [some b!"cn", some b!"cn"] := by
    decide
  rw [e] at this
  simp only [NoTwice, List.pairwise_cons] at this
  have := this.1 (some b!"cn") (by simp)
  exact absurd this (by decide)

/-- What a list is expected to hold when nothing is refused for being a duplicate:
the attribute names offered, in order. -/
def offered : PushArg → Option Str
  | .str s => if isIdentifier s || s == b!"*" then some s else none
  | .at_ (some s) => if s = [] then none else some s
  | _ => none

def expect (l : List Str) : ListCall → List Str
  | .push x => l ++ x.filterMap offered
  | .pop => l.dropLast

private theorem push1_entries (eq : Str → Str → Bool) (es : List AttributeType) (x : PushArg) :
    ATs.push1 eq ⟨es, []⟩ x = ⟨es ++ ((offered x).toList.map some), []⟩ := by
  cases x with
  | str s =>
    by_cases h : (isIdentifier s || s == b!"*") = true
    · have hn : s ≠ [] := by rintro rfl; exact absurd h (by decide)
      have hl : s.length ≠ 0 := by simpa using hn
      simp [ATs.push1, castArg, pushPolicy, containsAT, AT, h, AttributeType.isZero, hn, offered]
    · simp [ATs.push1, castArg, pushPolicy, containsAT, AT, h, AttributeType.isZero, offered]
  | at_ a =>
    cases a with
    | none => simp [ATs.push1, castArg, pushPolicy, containsAT, AttributeType.isZero, offered]
    | some s =>
      by_cases h : s = []
      · simp [ATs.push1, castArg, pushPolicy, containsAT, AttributeType.isZero, offered, h]
      · simp [ATs.push1, castArg, pushPolicy, containsAT, AttributeType.isZero, offered, h]
  | other => simp [ATs.push1, castArg, pushPolicy, containsAT, offered]

private theorem push_entries (eq : Str → Str → Bool) (es : List AttributeType) (x : List PushArg) :
    ATs.push eq ⟨es, []⟩ x = ⟨es ++ (x.filterMap offered).map some, []⟩ := by
  induction x generalizing es with
  | nil => simp [ATs.push]
  | cons a x ih =>
    rw [ATs.push, List.foldl_cons, push1_entries]
    have := ih (es ++ (offered a).toList.map some)
    rw [ATs.push] at this
    rw [this]
    cases ho : offered a <;> simp [ho]

private theorem run_entries (eq : Str → Str → Bool) (l : List Str) (c : ListCall) :
    c.run eq ⟨l.map some, []⟩ = ⟨(expect l c).map some, []⟩ := by
  cases c with
  | push x => simp [ListCall.run, push_entries, expect]
  | pop => simp [ListCall.run, ATs.pop, expect, List.map_dropLast]

private theorem listAfter_eq (eq : Str → Str → Bool) (init : List PushArg) (h : List ListCall) :
    listAfter eq init h = (h.foldl expect (init.filterMap offered)).map some := by
  have : ∀ l : List Str, h.foldl (ListCall.run eq) ⟨l.map some, []⟩ = ⟨(h.foldl expect l).map some, []⟩ := by
    induction h with
    | nil => intro l; rfl
    | cons c h ih => intro l; rw [List.foldl_cons, run_entries, ih]; rfl
  rw [listAfter, TAs, push_entries]
  rw [show ([] ++ (init.filterMap offered).map some : List AttributeType) =
    (init.filterMap offered).map some from rfl, this]

/-- **C31, part.** After any history the list holds exactly the attribute names that
were offered and not popped, in order; values that are no attribute name never enter.
So if the names offered are distinct up to letter case and nothing is popped, the list
has no duplicates.
Missing: the list does not itself refuse a name it already holds. -/
theorem C31_entries_partial (E : EqualFold) (init : List PushArg) (h : List ListCall) :
    (∀ x s, offered x = some s ↔ (x = .str s ∧ AttrName s) ∨ (x = .at_ (some s) ∧ s ≠ [])) ∧
    listAfter E.eq init h = (h.foldl expect (init.filterMap offered)).map some ∧
    ((init.filterMap offered).Pairwise (fun a b => E.eq a b = false) →
      NoTwice E.eq (listAfter E.eq init [])) := by
  refine ⟨?_, listAfter_eq _ _ _, ?_⟩
  · intro x s
    cases x with
    | str u =>
      have hi : (isIdentifier u || u == b!"*") = true ↔ AttrName u := by
        rw [← AT_some, AT]
        split <;> simp_all
      simp only [offered, hi, PushArg.str.injEq, reduceCtorEq, false_and, or_false]
      split
      · next h => constructor
                  · rintro h'; cases h'; exact ⟨rfl, hi.1 h⟩
                  · rintro ⟨rfl, _⟩; rfl
      · next h => constructor
                  · intro h'; cases h'
                  · rintro ⟨rfl, h'⟩; exact absurd (hi.2 h') h
    | at_ a =>
      cases a with
      | none => simp [offered]
      | some u =>
        simp only [offered, reduceCtorEq, false_and, false_or, PushArg.at_.injEq, Option.some.injEq]
        split
        · next h => constructor
                    · intro h'; cases h'
                    · rintro ⟨rfl, h'⟩; exact absurd h h'
        · next h => constructor
                    · intro h'; cases h'; exact ⟨rfl, h⟩
                    · rintro ⟨rfl, _⟩; rfl
    | other => simp [offered]
  intro hp
  rw [listAfter_eq, NoTwice, List.foldl_nil, List.pairwise_map]
  exact hp

/-- The callers that look first: push a name only when `Contains` says it is absent. -/
def pushNew (eq : Str → Str → Bool) (r : ATs) (x : PushArg) : ATs :=
  if containsAT eq r.entries x then r else r.push eq [x]

/-- **C31, part**: a caller that asks `Contains` before every push never creates a
duplicate, so `Contains` itself is right.
Missing: as above, the list relies on the caller. -/
theorem C31_contains_partial (E : EqualFold) (xs : List PushArg) :
    NoTwice E.eq (xs.foldl (pushNew E.eq) (TAs E.eq [])).entries := by
  have key : ∀ l : List Str, NoTwice E.eq (l.map some) →
      NoTwice E.eq (xs.foldl (pushNew E.eq) ⟨l.map some, []⟩).entries := by
    induction xs with
    | nil => intro l h; exact h
    | cons x xs ih =>
      intro l h
      rw [List.foldl_cons]
      by_cases hc : containsAT E.eq (l.map some) x = true
      · rw [pushNew, if_pos hc]; exact ih l h
      · rw [pushNew, if_neg hc, push_entries]
        simp only [List.filterMap_cons, List.filterMap_nil]
        cases ho : offered x with
        | none => simpa using ih l h
        | some s =>
          have := ih (l ++ [s]) ?_
          · simpa using this
          · simp only [NoTwice, List.map_append, List.pairwise_append] at h ⊢
            refine ⟨h, by simp, ?_⟩
            intro a ha b hb
            simp only [List.map_cons, List.map_nil, List.mem_singleton] at hb
            subst hb
            have hcx : containsAT E.eq (l.map some) x = containsAT E.eq (l.map some) (.at_ (some s)) := by
              cases x with
              | str u =>
                simp only [offered] at ho
                split at ho
                · simp at ho; subst ho; rfl
                · cases ho
              | at_ u =>
                cases u with
                | none => simp [offered] at ho
                | some u => simp [offered] at ho; simp [ho.2]
              | other => simp [offered] at ho
            rw [hcx] at hc
            simp only [containsAT, List.any_eq_true, not_exists, not_and] at hc
            simpa using hc a ha
  exact key [] (by simp [NoTwice])

example : listAfter EqualFold.ref.eq [.str b!"cn"] [.push [.str b!"2bad", .at_ (some b!"sn"), .other],
    .push [.str b!"mail"], .pop] = [some b!"cn", some b!"sn"] := by decide

end Verif.Attr
