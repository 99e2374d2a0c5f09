import Verif.Model.Err
import Verif.Lemmas.Num

/-!
# C85, C86: errors are reported, and their messages are complete

The calls below list every error constructor of /repo/err.go except `errorf` and
`pushError`, on which the others rest.
-/

namespace Verif.Err
open Verif

set_option linter.unusedSimpArgs false

/-- A call of one of the error constructors of /repo/err.go with its arguments. -/
inductive Call where
  | nilInstance (x : Val)
  | badInh (bad : Str)
  | badCop (i : Val)
  | badClockTime (raw : Str) (got : Str)
  | badFactor (raw : Str) (got : Str)
  | bindCount (key : BindKeyword) (want : Int) (got : Int)
  | badIP (want : Int) (got : Int)
  | badDNS (raw : Str) (got : Str)
  | badAM (raw : Str) (got : Str)
  | badKeyword (cand : Val) (typ : Str) (want : KwArg) (got : KwArg)
  | noValues (cand : Val) (typ : Str) (key : Option Str)
  | badPair (x : Str)
  | badOid (x : Str)
  | badOidKeyword (key : TargetKeyword)
  | badKind (rec : Val) (want : Str) (got : Str)
  | badSlice (rec : Val) (want : Val) (got : Val)
  | badSyntax (cand : Val) (key : Option Str) (er : List (Option Str))
  | badSplit (d : Int) (l : Int) (o : Int) (c : Nat) (char : Str)
  | noPrefix
  | badPrefix
  | badScheme
  | noDelimiter (af : Val)
  | noLabel
  | noLevels
  | noRight (x : Str)
  | badTime
  | badDay (x : Val)
  | noDisposition
  | badLabel (x : Val)
  | badLength (l : Int)
  | badExpr (rec : Val) (want : Val) (got : Val)
  | badTree (stk : Val) (b : Val)
  | badText (typ : Str) (want : Str) (got : Str)
  | badCount (typ : Str) (want : Int) (got : Int)
  | bogus (typ : Str) (x : Str)
  | general (typ : Str) (err : Option Str)
  | noValue (cand : Val) (typ : Str)
  | notUnique (rec : Val) (cand : Val) (key : Option Str) (er : List (Option Str))
  | nilOrZero (rec : Val) (cand : Val) (key : Option Str) (er : List (Option Str))
  | badType (rec : Val) (cand : Val) (key : Option Str) (er : List (Option Str))

/-- The error returned by the call; `none` is nil. -/
def Call.run (eq : Str → Str → Bool) : Call → Option Str
  | .nilInstance x => nilInstanceErr x
  | .badInh bad => badInhErr bad
  | .badCop i => badCopErr i
  | .badClockTime raw got => badClockTimeErr raw got
  | .badFactor raw got => badSecurityStrengthFactorErr raw got
  | .bindCount key want got => unexpectedBindConditionValueErr key want got
  | .badIP want got => badIPErr want got
  | .badDNS raw got => badDNSErr raw got
  | .badAM raw got => badAMErr eq raw got
  | .badKeyword cand typ want got => badPTBRuleKeywordErr cand typ want got
  | .noValues cand typ key => noTBRuleExpressionValues cand typ key
  | .badPair x => badAttributeBindTypeOrValueErr x
  | .badOid x => badObjectIdentifierErr x
  | .badOidKeyword key => badObjectIdentifierKeywordErr key
  | .badKind rec want got => unexpectedKindErr rec want got
  | .badSlice rec want got => illegalSliceTypeErr rec want got
  | .badSyntax cand key er => illegalSyntaxPerTypeErr cand key er
  | .badSplit d l o c char => afosNonIdempSplitErr d l o c char
  | .noPrefix => afoMissingPrefixErr
  | .badPrefix => aoBadPrefixErr
  | .badScheme => uriBadPrefixErr
  | .noDelimiter af => afMissingDelimiterErr af
  | .noLabel => instructionNoLabelErr
  | .noLevels => levelsNotFoundErr
  | .noRight x => rightNotfound x
  | .badTime => dowBadTimeErr
  | .badDay x => dowBadDayErr x
  | .noDisposition => noPermissionDispErr
  | .badLabel x => fqdnInvalidLabelErr x
  | .badLength l => fqdnInvalidLenErr l
  | .badExpr rec want got => parseBindRuleInvalidExprTypeErr rec want got
  | .badTree stk b => parseBindRulesHierErr stk b
  | .badText typ want got => unexpectedStringResult typ want got
  | .badCount typ want got => unexpectedValueCountErr typ want got
  | .bogus typ x => bogusValueErr typ x
  | .general typ err => generalErr typ err
  | .noValue cand typ => noValueErr cand typ
  | .notUnique rec cand key er => pushErrorNotUnique rec cand key er
  | .nilOrZero rec cand key er => pushErrorNilOrZero rec cand key er
  | .badType rec cand key er => pushErrorBadType rec cand key er

/-- What a message shows of a keyword: its name, or a word for its absence. -/
def keyShown : Option Str → Str
  | some s => s
  | none => b!"<unspecified_keyword>"

theorem keyText_shown (k : Option Str) : keyText k = keyShown k := by cases k <;> rfl

/-- What the message has to show: the types, texts and numbers it is about. -/
def Call.about : Call → List Str
  | .nilInstance x => [x.typ]
  | .badInh bad => [bad]
  | .badCop i => [i.typ]
  | .badClockTime raw got => [b!"timeofday", raw, got]
  | .badFactor raw got => [raw, got]
  | .bindCount key want got => [BindKeyword.string key, intText want, intText got]
  | .badIP want got => [b!"ip", intText want, intText got]
  | .badDNS raw got => [b!"dns", raw, got]
  | .badAM raw got => [b!"authmethod", raw, got]
  | .badKeyword cand typ want got => [cand.typ, typ, want.text, got.text]
  | .noValues cand typ _ => [cand.typ, typ]
  | .badPair x => [x]
  | .badOid x => [x]
  | .badOidKeyword key => [b!"ObjectIdentifier", b!"aci.TargetKeyword", TargetKeyword.string key]
  | .badKind rec want got => [rec.typ, want, got]
  | .badSlice rec want got => [rec.typ, want.typ, got.typ]
  | .badSyntax cand key _ => [cand.typ, keyShown key]
  | .badSplit d l o _ char => [intText d, intText l, intText o, char]
  | .noPrefix => [b!"aci.AttributeFilterOperation", b!"aci.AttributeOperation"]
  | .badPrefix => [b!"aci.AttributeOperation"]
  | .badScheme => [b!"aci.LDAPURI", b!"ldap:///"]
  | .noDelimiter af => [b!":", af.typ]
  | .noLabel => [b!"aci.Instruction"]
  | .noLevels => []
  | .noRight x => [x]
  | .badTime => [b!"aci.TimeOfDay"]
  | .badDay x => [b!"aci.DayOfWeek", x.text]
  | .noDisposition => [b!"aci.Permission"]
  | .badLabel x => [b!"aci.FQDN", x.text]
  | .badLength l => [b!"aci.FQDN", intText l, b!"253"]
  | .badExpr rec want got => [rec.typ, want.typ, got.typ]
  | .badTree stk b => [stk.typ, b.typ]
  | .badText typ want got => [typ, want, got]
  | .badCount typ want got => [typ, intText want, intText got]
  | .bogus typ x => [typ, x]
  | .general typ _ => [typ]
  | .noValue cand typ => [cand.typ, typ]
  | .notUnique rec cand key _ => [rec.typ, cand.typ, keyShown key]
  | .nilOrZero rec cand key _ => [rec.typ, cand.typ, keyShown key]
  | .badType rec cand key _ => [rec.typ, cand.typ, keyShown key]

/-- The six calls that compare what was read with what was given, when the two agree.
The other calls have nothing to agree on. -/
def Call.agree (eq : Str → Str → Bool) : Call → Prop
  | .badClockTime raw got => raw = got
  | .badFactor raw got => raw = got
  | .bindCount _ want got => want = got
  | .badIP want got => want = got
  | .badDNS raw got => raw = got
  | .badAM raw got => eq got raw = true
  | _ => False

theorem errorf_str {s : Str} (h : s ≠ []) (x : List Val) : errorf (.str s) x ≠ none := by
  have : s.length > 0 := List.length_pos_iff.2 h
  simp [errorf, this]

theorem pushError_ne {emsg : Str} (h : emsg ≠ []) (r c : Val) (k : Option Str)
    (er : List (Option Str)) : pushError r c k emsg er ≠ none := by
  unfold pushError
  split <;> exact errorf_str h _

theorem illegalSyntax_ne (c : Val) (k : Option Str) (er : List (Option Str)) :
    illegalSyntaxPerTypeErr c k er ≠ none := by
  unfold illegalSyntaxPerTypeErr
  split <;> exact errorf_str (by simp) _

theorem errorf_if {p : Prop} [Decidable p] {s : Str} (h : s ≠ []) (x : List Val) :
    (if p then errorf (.str s) x else none) = none ↔ ¬ p := by
  by_cases hp : p <;> simp [hp, errorf_str h]

/-- **C85.** An error constructor returns nil in one case only: it compares what was read
with what was given, and the two agree.  The comparison of authentication methods passes
over the case of letters; the other five are exact. -/
theorem C85_reported (eq : Str → Str → Bool) (c : Call) : c.run eq = none ↔ c.agree eq := by
  cases c with
  | badClockTime raw got =>
    exact (errorf_if (by simp) _).trans (by simp [Call.agree, eq_comm])
  | badFactor raw got =>
    exact (errorf_if (by simp) _).trans (by simp [Call.agree, eq_comm])
  | bindCount key want got => exact (errorf_if (by simp) _).trans (by simp [Call.agree])
  | badIP want got => exact (errorf_if (by simp) _).trans (by simp [Call.agree])
  | badDNS raw got => exact (errorf_if (by simp) _).trans (by simp [Call.agree])
  | badAM raw got => exact (errorf_if (by simp) _).trans (by simp [Call.agree])
  | badSyntax c k er => exact iff_of_false (illegalSyntax_ne c k er) (by simp [Call.agree])
  | notUnique r c k er => exact iff_of_false (pushError_ne (by simp) r c k er) (by simp [Call.agree])
  | nilOrZero r c k er => exact iff_of_false (pushError_ne (by simp) r c k er) (by simp [Call.agree])
  | badType r c k er => exact iff_of_false (pushError_ne (by simp) r c k er) (by simp [Call.agree])
  | _ => exact iff_of_false (fun h => errorf_str (List.cons_ne_nil _ _) _ h) (by simp [Call.agree])

example : (Call.badClockTime b!"0830" b!"0830").run Str.eqFold = none
    ∧ (Call.badClockTime b!"830" b!"0830").run Str.eqFold ≠ none := by
  constructor
  · exact (C85_reported _ _).2 rfl
  · exact fun h => absurd ((C85_reported _ _).1 h) (by simp [Call.agree])

/-- **C85.** `errorf` returns nil exactly for an empty text, a nil error, and a message
that is neither text nor error; `pushError` only for an empty text. -/
theorem C85_errorf (msg : Msg) (x : List Val) :
    (errorf msg x = none ↔ msg = .str [] ∨ msg = .err none ∨ msg = .other) ∧
    ∀ r c k emsg er, pushError r c k emsg er = none ↔ emsg = [] := by
  refine ⟨?_, ?_⟩
  · rcases msg with s | e | _
    · cases s <;> simp [errorf]
    · cases e <;> simp [errorf]
    · simp [errorf]
  · intro r c k emsg er
    constructor
    · intro h
      cases emsg with
      | nil => rfl
      | cons a t => exact absurd h (pushError_ne (by simp) r c k er)
    · rintro rfl
      unfold pushError
      split <;> rfl

example : errorf (.str b!"No level identifiers parsed; aborting") [] ≠ none := by
  simp [Ne, (C85_errorf _ _).1]

/-! ## C86 -/

/-- The verbs of a format, in order, when it has no `%%` and ends in no lone `%`. -/
def verbs : Str → Option (List Byte)
  | [] => some []
  | [37] => none
  | 37 :: v :: fmt => if v = 37 then none else (verbs fmt).map (v :: ·)
  | _ :: fmt => verbs fmt

/-- The verb suits the value. -/
def suits (v : Byte) (a : Val) : Bool :=
  v = 84 || v = 118 ||
    match a with
    | .nil => false
    | .num _ _ _ => v = 100 || v = 99
    | .txt _ _ => v = 115

/-- As many verbs as values, and every verb suits its value. -/
def suitsAll : List Byte → List Val → Bool
  | [], [] => true
  | v :: vs, a :: as => suits v a && suitsAll vs as
  | _, _ => false

theorem format_infix {fmt : Str} {vs : List Byte} (hv : verbs fmt = some vs) (as : List Val)
    {v : Byte} {a : Val} (h : (v, a) ∈ vs.zip as) : format v a <:+: sprintf fmt as := by
  induction fmt using verbs.induct generalizing vs as with
  | case1 => cases hv; simp at h
  | case2 => simp [verbs] at hv
  | case3 fmt => simp [verbs] at hv
  | case4 w fmt hw ih =>
    rw [verbs, if_neg hw] at hv
    cases hf : verbs fmt with
    | none => rw [hf] at hv; cases hv
    | some ws =>
      rw [hf] at hv; cases hv
      cases as with
      | nil => simp at h
      | cons b bs =>
        rw [sprintf, if_neg hw]
        simp only [List.zip_cons_cons, List.mem_cons] at h
        rcases h with h | h
        · cases h; exact (List.prefix_append _ _).isInfix
        · exact (ih hf bs h).trans (List.suffix_append _ _).isInfix
  | case5 c fmt h1 h2 ih =>
    rw [verbs] at hv
    · rw [sprintf]
      · exact (ih hv as h).trans (List.suffix_cons _ _).isInfix
      · exact h1
      · exact h2
    · exact h1
    · exact h2

/-- A value whose type and texts have no percent sign. -/
def Plain : Val → Prop
  | .nil => True
  | .num t s c => 37 ∉ t ∧ 37 ∉ s ∧ 37 ∉ c
  | .txt t s => 37 ∉ t ∧ 37 ∉ s

theorem format_plain {v : Byte} {a : Val} (hs : suits v a = true) (ha : Plain a) :
    37 ∉ format v a := by
  unfold format
  by_cases h1 : v = 84
  · rw [if_pos h1]; cases a <;> simp_all [Plain, Val.typ]
  · rw [if_neg h1]
    by_cases h2 : v = 118
    · rw [if_pos h2]; cases a <;> simp_all [Plain, Val.text]
    · rw [if_neg h2]
      cases a with
      | nil => simp [suits, h1, h2] at hs
      | num t s c =>
        simp only [suits, h1, h2, decide_false, Bool.or_self, Bool.false_or, Bool.or_eq_true,
          decide_eq_true_eq] at hs
        by_cases h3 : v = 100
        · simp [h3, ha.2.1]
        · have h4 := hs.resolve_left h3
          simp [h4, ha.2.2]
      | txt t s =>
        simp only [suits, h1, h2, decide_false, Bool.or_self, Bool.false_or,
          decide_eq_true_eq] at hs
        simp [hs, ha.2]

theorem sprintf_plain {fmt : Str} {vs : List Byte} (hv : verbs fmt = some vs) {as : List Val}
    (hs : suitsAll vs as = true) (ha : ∀ a ∈ as, Plain a) : 37 ∉ sprintf fmt as := by
  induction fmt using verbs.induct generalizing vs as with
  | case1 =>
    cases hv
    cases as with
    | nil => simp [sprintf, extra]
    | cons b bs => cases hs
  | case2 => simp [verbs] at hv
  | case3 fmt => simp [verbs] at hv
  | case4 w fmt hw ih =>
    rw [verbs, if_neg hw] at hv
    cases hf : verbs fmt with
    | none => rw [hf] at hv; cases hv
    | some ws =>
      rw [hf] at hv; cases hv
      cases as with
      | nil => cases hs
      | cons b bs =>
        rw [sprintf, if_neg hw]
        simp only [suitsAll, Bool.and_eq_true] at hs
        simp only [List.mem_append, not_or]
        exact ⟨format_plain hs.1 (ha b (by simp)), ih hf hs.2 fun a h => ha a (by simp [h])⟩
  | case5 c fmt h1 h2 ih =>
    rw [verbs] at hv
    · rw [sprintf]
      · simp only [List.mem_cons, not_or]
        refine ⟨?_, ih hv hs ha⟩
        intro hc
        subst hc
        cases fmt with
        | nil => exact h1 rfl rfl
        | cons w l => exact h2 w l rfl rfl
      · exact h1
      · exact h2
    · exact h1
    · exact h2

theorem of_if {p : Prop} [Decidable p] {f : Option Str} {m : Str}
    (h : (if p then f else none) = some m) : f = some m := by
  by_cases hp : p
  · rwa [if_pos hp] at h
  · rw [if_neg hp] at h; cases h

theorem errorf_some {fmt : Str} {as : List Val} {m : Str} (h : errorf (.str fmt) as = some m) :
    m = sprintf fmt as := by
  unfold errorf at h
  exact (Option.some.inj (of_if h)).symm

theorem about_of {fmt : Str} {vs : List Byte} (hv : verbs fmt = some vs) {as : List Val} {m : Str}
    (hm : errorf (.str fmt) as = some m) {ts : List Str}
    (ht : ∀ t ∈ ts, t ∈ (vs.zip as).map fun p => format p.1 p.2) : ∀ t ∈ ts, t <:+: m := by
  intro t h
  obtain ⟨⟨v, a⟩, hp, rfl⟩ := List.mem_map.1 (ht t h)
  rw [errorf_some hm]
  exact format_infix hv as hp

theorem plain_of {fmt : Str} {vs : List Byte} (hv : verbs fmt = some vs) {as : List Val} {m : Str}
    (hm : errorf (.str fmt) as = some m) (hs : suitsAll vs as = true) (ha : ∀ a ∈ as, Plain a) :
    37 ∉ m := by
  rw [errorf_some hm]
  exact sprintf_plain hv hs ha

theorem about_push {emsg : Str} {w : List Byte} (hv : verbs emsg = some ([84, 84, 115] ++ w))
    {r c : Val} {k : Option Str} {er : List (Option Str)} {m : Str}
    (hm : pushError r c k emsg er = some m) :
    ∀ t ∈ [r.typ, c.typ, keyShown k], t <:+: m := by
  rw [← keyText_shown]
  unfold pushError at hm
  split at hm <;>
  exact about_of hv hm (by cases w <;> simp [format, strVal])

/-- **C86.** Every message shows what it is about: the types of the values concerned, the
text that was refused, the numbers and texts that were wanted and found, and the keyword. -/
theorem C86_about (eq : Str → Str → Bool) (c : Call) (m : Str) (h : c.run eq = some m) :
    ∀ t ∈ c.about, t <:+: m := by
  cases c with
  | nilInstance x =>
    simp only [Call.run, nilInstanceErr] at h
    exact about_of (vs := [84]) (by decide +kernel) h (by simp [Call.about, format, strVal, intVal, bkwVal, tkwVal, kwVal, afoVal, aopVal, insVal, fqdnVal, errVal, Val.typ, Val.text])
  | badInh bad =>
    simp only [Call.run, badInhErr] at h
    exact about_of (vs := [115]) (by decide +kernel) h (by simp [Call.about, format, strVal, intVal, bkwVal, tkwVal, kwVal, afoVal, aopVal, insVal, fqdnVal, errVal, Val.typ, Val.text])
  | badCop i =>
    simp only [Call.run, badCopErr] at h
    exact about_of (vs := [84]) (by decide +kernel) h (by simp [Call.about, format, strVal, intVal, bkwVal, tkwVal, kwVal, afoVal, aopVal, insVal, fqdnVal, errVal, Val.typ, Val.text])
  | badClockTime raw got =>
    simp only [Call.run, badClockTimeErr] at h
    exact about_of (vs := [115, 115, 115]) (by decide +kernel) (of_if h) (by simp [Call.about, show BindKeyword.string BindToD = b!"timeofday" from by decide, format, strVal, intVal, bkwVal, tkwVal, kwVal, afoVal, aopVal, insVal, fqdnVal, errVal, Val.typ, Val.text])
  | badFactor raw got =>
    simp only [Call.run, badSecurityStrengthFactorErr] at h
    exact about_of (vs := [115, 115]) (by decide +kernel) (of_if h) (by simp [Call.about, format, strVal, intVal, bkwVal, tkwVal, kwVal, afoVal, aopVal, insVal, fqdnVal, errVal, Val.typ, Val.text])
  | bindCount key want got =>
    simp only [Call.run, unexpectedBindConditionValueErr] at h
    exact about_of (vs := [115, 100, 100]) (by decide +kernel) (of_if h) (by simp [Call.about, format, strVal, intVal, bkwVal, tkwVal, kwVal, afoVal, aopVal, insVal, fqdnVal, errVal, Val.typ, Val.text])
  | badIP want got =>
    simp only [Call.run, badIPErr] at h
    exact about_of (vs := [115, 100, 100]) (by decide +kernel) (of_if h) (by simp [Call.about, show BindKeyword.string BindIP = b!"ip" from by decide, format, strVal, intVal, bkwVal, tkwVal, kwVal, afoVal, aopVal, insVal, fqdnVal, errVal, Val.typ, Val.text])
  | badDNS raw got =>
    simp only [Call.run, badDNSErr] at h
    exact about_of (vs := [115, 115, 115]) (by decide +kernel) (of_if h) (by simp [Call.about, show BindKeyword.string BindDNS = b!"dns" from by decide, format, strVal, intVal, bkwVal, tkwVal, kwVal, afoVal, aopVal, insVal, fqdnVal, errVal, Val.typ, Val.text])
  | badAM raw got =>
    simp only [Call.run, badAMErr] at h
    exact about_of (vs := [115, 115, 115]) (by decide +kernel) (of_if h) (by simp [Call.about, show BindKeyword.string BindAM = b!"authmethod" from by decide, format, strVal, intVal, bkwVal, tkwVal, kwVal, afoVal, aopVal, insVal, fqdnVal, errVal, Val.typ, Val.text])
  | badKeyword cand typ want got =>
    simp only [Call.run, badPTBRuleKeywordErr] at h
    exact about_of (vs := [115, 84, 115, 115]) (by decide +kernel) h (by simp [Call.about, format, strVal, intVal, bkwVal, tkwVal, kwVal, afoVal, aopVal, insVal, fqdnVal, errVal, Val.typ, Val.text])
  | noValues cand typ key =>
    simp only [Call.run, noTBRuleExpressionValues] at h
    exact about_of (vs := [115, 115, 84]) (by decide +kernel) h (by simp [Call.about, format, strVal, intVal, bkwVal, tkwVal, kwVal, afoVal, aopVal, insVal, fqdnVal, errVal, Val.typ, Val.text])
  | badPair x =>
    simp only [Call.run, badAttributeBindTypeOrValueErr] at h
    exact about_of (vs := [115]) (by decide +kernel) h (by simp [Call.about, format, strVal, intVal, bkwVal, tkwVal, kwVal, afoVal, aopVal, insVal, fqdnVal, errVal, Val.typ, Val.text])
  | badOid x =>
    simp only [Call.run, badObjectIdentifierErr] at h
    exact about_of (vs := [115]) (by decide +kernel) h (by simp [Call.about, format, strVal, intVal, bkwVal, tkwVal, kwVal, afoVal, aopVal, insVal, fqdnVal, errVal, Val.typ, Val.text])
  | badOidKeyword key =>
    simp only [Call.run, badObjectIdentifierKeywordErr] at h
    exact about_of (vs := [115, 84, 115]) (by decide +kernel) h (by simp [Call.about, format, strVal, intVal, bkwVal, tkwVal, kwVal, afoVal, aopVal, insVal, fqdnVal, errVal, Val.typ, Val.text])
  | badKind rec want got =>
    simp only [Call.run, unexpectedKindErr] at h
    exact about_of (vs := [84, 115, 115]) (by decide +kernel) h (by simp [Call.about, format, strVal, intVal, bkwVal, tkwVal, kwVal, afoVal, aopVal, insVal, fqdnVal, errVal, Val.typ, Val.text])
  | badSlice rec want got =>
    simp only [Call.run, illegalSliceTypeErr] at h
    exact about_of (vs := [84, 84, 84]) (by decide +kernel) h (by simp [Call.about, format, strVal, intVal, bkwVal, tkwVal, kwVal, afoVal, aopVal, insVal, fqdnVal, errVal, Val.typ, Val.text])
  | badSplit d l o c char =>
    simp only [Call.run, afosNonIdempSplitErr] at h
    exact about_of (vs := [100, 99, 100, 100]) (by decide +kernel) h (by simp [Call.about, format, strVal, intVal, bkwVal, tkwVal, kwVal, afoVal, aopVal, insVal, fqdnVal, errVal, Val.typ, Val.text])
  | noPrefix =>
    simp only [Call.run, afoMissingPrefixErr] at h
    exact about_of (vs := [84, 84]) (by decide +kernel) h (by simp [Call.about, format, strVal, intVal, bkwVal, tkwVal, kwVal, afoVal, aopVal, insVal, fqdnVal, errVal, Val.typ, Val.text])
  | badPrefix =>
    simp only [Call.run, aoBadPrefixErr] at h
    exact about_of (vs := [84]) (by decide +kernel) h (by simp [Call.about, format, strVal, intVal, bkwVal, tkwVal, kwVal, afoVal, aopVal, insVal, fqdnVal, errVal, Val.typ, Val.text])
  | badScheme =>
    simp only [Call.run, uriBadPrefixErr] at h
    exact about_of (vs := [84, 115]) (by decide +kernel) h (by simp [Call.about, format, strVal, intVal, bkwVal, tkwVal, kwVal, afoVal, aopVal, insVal, fqdnVal, errVal, Val.typ, Val.text])
  | noDelimiter af =>
    simp only [Call.run, afMissingDelimiterErr] at h
    exact about_of (vs := [99, 84]) (by decide +kernel) h (by simp [Call.about, format, strVal, intVal, bkwVal, tkwVal, kwVal, afoVal, aopVal, insVal, fqdnVal, errVal, Val.typ, Val.text])
  | noLabel =>
    simp only [Call.run, instructionNoLabelErr] at h
    exact about_of (vs := [84, 84]) (by decide +kernel) h (by simp [Call.about, format, strVal, intVal, bkwVal, tkwVal, kwVal, afoVal, aopVal, insVal, fqdnVal, errVal, Val.typ, Val.text])
  | noLevels =>
    simp only [Call.run, levelsNotFoundErr] at h
    exact about_of (vs := []) (by decide +kernel) h (by simp [Call.about, format, strVal, intVal, bkwVal, tkwVal, kwVal, afoVal, aopVal, insVal, fqdnVal, errVal, Val.typ, Val.text])
  | noRight x =>
    simp only [Call.run, rightNotfound] at h
    exact about_of (vs := [115]) (by decide +kernel) h (by simp [Call.about, format, strVal, intVal, bkwVal, tkwVal, kwVal, afoVal, aopVal, insVal, fqdnVal, errVal, Val.typ, Val.text])
  | badTime =>
    simp only [Call.run, dowBadTimeErr] at h
    exact about_of (vs := [84]) (by decide +kernel) h (by simp [Call.about, format, strVal, intVal, bkwVal, tkwVal, kwVal, afoVal, aopVal, insVal, fqdnVal, errVal, Val.typ, Val.text])
  | badDay x =>
    simp only [Call.run, dowBadDayErr] at h
    exact about_of (vs := [84, 118]) (by decide +kernel) h (by simp [Call.about, format, strVal, intVal, bkwVal, tkwVal, kwVal, afoVal, aopVal, insVal, fqdnVal, errVal, Val.typ, Val.text])
  | noDisposition =>
    simp only [Call.run, noPermissionDispErr] at h
    exact about_of (vs := [84]) (by decide +kernel) h (by simp [Call.about, format, strVal, intVal, bkwVal, tkwVal, kwVal, afoVal, aopVal, insVal, fqdnVal, errVal, Val.typ, Val.text])
  | badLabel x =>
    simp only [Call.run, fqdnInvalidLabelErr] at h
    exact about_of (vs := [84, 118]) (by decide +kernel) h (by simp [Call.about, format, strVal, intVal, bkwVal, tkwVal, kwVal, afoVal, aopVal, insVal, fqdnVal, errVal, Val.typ, Val.text])
  | badLength l =>
    simp only [Call.run, fqdnInvalidLenErr] at h
    exact about_of (vs := [84, 100, 100]) (by decide +kernel) h (by simp [Call.about, show intText 253 = b!"253" from by decide, format, strVal, intVal, bkwVal, tkwVal, kwVal, afoVal, aopVal, insVal, fqdnVal, errVal, Val.typ, Val.text])
  | badExpr rec want got =>
    simp only [Call.run, parseBindRuleInvalidExprTypeErr] at h
    exact about_of (vs := [84, 84, 84]) (by decide +kernel) h (by simp [Call.about, format, strVal, intVal, bkwVal, tkwVal, kwVal, afoVal, aopVal, insVal, fqdnVal, errVal, Val.typ, Val.text])
  | badTree stk b =>
    simp only [Call.run, parseBindRulesHierErr] at h
    exact about_of (vs := [84, 84]) (by decide +kernel) h (by simp [Call.about, format, strVal, intVal, bkwVal, tkwVal, kwVal, afoVal, aopVal, insVal, fqdnVal, errVal, Val.typ, Val.text])
  | badText typ want got =>
    simp only [Call.run, unexpectedStringResult] at h
    exact about_of (vs := [115, 115, 115]) (by decide +kernel) h (by simp [Call.about, format, strVal, intVal, bkwVal, tkwVal, kwVal, afoVal, aopVal, insVal, fqdnVal, errVal, Val.typ, Val.text])
  | badCount typ want got =>
    simp only [Call.run, unexpectedValueCountErr] at h
    exact about_of (vs := [115, 100, 100]) (by decide +kernel) h (by simp [Call.about, format, strVal, intVal, bkwVal, tkwVal, kwVal, afoVal, aopVal, insVal, fqdnVal, errVal, Val.typ, Val.text])
  | bogus typ x =>
    simp only [Call.run, bogusValueErr] at h
    exact about_of (vs := [115, 115]) (by decide +kernel) h (by simp [Call.about, format, strVal, intVal, bkwVal, tkwVal, kwVal, afoVal, aopVal, insVal, fqdnVal, errVal, Val.typ, Val.text])
  | general typ err =>
    simp only [Call.run, generalErr] at h
    exact about_of (vs := [115, 118]) (by decide +kernel) h (by simp [Call.about, format, strVal, intVal, bkwVal, tkwVal, kwVal, afoVal, aopVal, insVal, fqdnVal, errVal, Val.typ, Val.text])
  | noValue cand typ =>
    simp only [Call.run, noValueErr] at h
    exact about_of (vs := [115, 84]) (by decide +kernel) h (by simp [Call.about, format, strVal, intVal, bkwVal, tkwVal, kwVal, afoVal, aopVal, insVal, fqdnVal, errVal, Val.typ, Val.text])
  | badSyntax cand key er =>
    simp only [Call.run, illegalSyntaxPerTypeErr] at h
    split at h
    · exact about_of (vs := [84, 115, 118]) (by decide +kernel) h (by simp [Call.about, ← keyText_shown, format, strVal, errVal, Val.typ, Val.text])
    · exact about_of (vs := [84, 115]) (by decide +kernel) h (by simp [Call.about, ← keyText_shown, format, strVal, errVal, Val.typ, Val.text])
  | notUnique r c k er =>
    simp only [Call.run, pushErrorNotUnique] at h
    exact about_push (w := []) (by decide +kernel) h
  | nilOrZero r c k er =>
    simp only [Call.run, pushErrorNilOrZero] at h
    exact about_push (w := [118]) (by decide +kernel) h
  | badType r c k er =>
    simp only [Call.run, pushErrorBadType] at h
    exact about_push (w := []) (by decide +kernel) h

example : b!"fly" <:+: b!"Right 'fly' unknown" :=
  C86_about Str.eqFold (.noRight b!"fly") _ (by decide +kernel) _ (by simp [Call.about])

/-- What a call is given besides: a keyword that may lack, or the error that is the cause. -/
def Call.besides : Call → Option Str
  | .noValues _ _ key => key
  | .badSyntax _ _ (e :: _) => e
  | .general _ err => err
  | .notUnique _ _ _ (e :: _) => e
  | .nilOrZero _ _ _ (e :: _) => e
  | .badType _ _ _ (e :: _) => e
  | _ => none

/-- **C86.** Every message shows the cause it is given, and the keyword if there is one; where
the text has no verb for the cause, the fmt package shows it as something extra. -/
theorem C86_besides (eq : Str → Str → Bool) (c : Call) (m : Str) (h : c.run eq = some m) (t : Str)
    (ht : c.besides = some t) : t <:+: m := by
  cases c with
  | noValues cand typ key =>
    cases (show key = some t from ht)
    simp only [Call.run, noTBRuleExpressionValues] at h
    exact about_of (vs := [115, 115, 84]) (ts := [t]) (by decide +kernel) h (by simp [format, kwVal]) t (by simp)
  | general typ err =>
    cases (show err = some t from ht)
    simp only [Call.run, generalErr] at h
    exact about_of (vs := [115, 118]) (ts := [t]) (by decide +kernel) h (by simp [format, errVal, Val.text]) t (by simp)
  | badSyntax cand key er =>
    cases er with
    | nil => cases ht
    | cons e er =>
      cases (show e = some t from ht)
      simp only [Call.run, illegalSyntaxPerTypeErr, firstErr] at h
      exact about_of (vs := [84, 115, 118]) (ts := [t]) (by decide +kernel) h (by simp [format, errVal, Val.text]) t (by simp)
  | nilOrZero r c k er =>
    cases er with
    | nil => cases ht
    | cons e er =>
      cases (show e = some t from ht)
      simp only [Call.run, pushErrorNilOrZero, pushError, firstErr] at h
      exact about_of (vs := [84, 84, 115, 118]) (ts := [t]) (by decide +kernel) h (by simp [format, errVal, Val.text]) t (by simp)
  | notUnique r c k er =>
    cases er with
    | nil => cases ht
    | cons e er =>
      cases (show e = some t from ht)
      simp only [Call.run, pushErrorNotUnique, pushError, firstErr] at h
      rw [errorf_some h]
      exact ⟨b!"Cannot push non-unique or ineligible " ++ c.typ ++ b!" into " ++ r.typ ++ b!" [" ++ keyText k ++
        b!"]%!(EXTRA *errors.errorString=", b!")", by
          simp [sprintf, format, extra, strVal, errVal, Val.complaint, Str.join]⟩
  | badType r c k er =>
    cases er with
    | nil => cases ht
    | cons e er =>
      cases (show e = some t from ht)
      simp only [Call.run, pushErrorBadType, pushError, firstErr] at h
      rw [errorf_some h]
      exact ⟨b!"Push request of " ++ c.typ ++ b!" type violates " ++ r.typ ++ b!" [" ++ keyText k ++
        b!"] PushPolicy%!(EXTRA *errors.errorString=", b!")", by
          simp [sprintf, format, extra, strVal, errVal, Val.complaint, Str.join]⟩
  | _ => cases ht

example : b!"too long" <:+: b!"General dns error: too long" :=
  C86_besides Str.eqFold (.general b!"dns" (some b!"too long")) _ (by decide +kernel) _ rfl

/-- The calls that name what was wanted and what was found: the words before the first,
and the two texts. -/
def Call.sides : Call → Option (Str × Str × Str)
  | .badClockTime raw got => some (b!"want ", b!"'" ++ raw ++ b!"'", b!"'" ++ got ++ b!"'")
  | .badFactor raw got => some (b!"want ", b!"'" ++ raw ++ b!"'", b!"'" ++ got ++ b!"'")
  | .bindCount _ want got => some (b!"want ", intText want, intText got)
  | .badIP want got => some (b!"want ", b!"'" ++ intText want ++ b!"'", b!"'" ++ intText got ++ b!"'")
  | .badDNS raw got => some (b!"want ", b!"'" ++ raw ++ b!"'", b!"'" ++ got ++ b!"'")
  | .badAM raw got => some (b!"want ", b!"'" ++ raw ++ b!"'", b!"'" ++ got ++ b!"'")
  | .badKeyword _ _ want got => some (b!"want ", b!"'" ++ want.text ++ b!"'", b!"'" ++ got.text ++ b!"'")
  | .badKind _ want got => some (b!"should be ", b!"'" ++ want ++ b!"'", b!"'" ++ got ++ b!"'")
  | .badSlice _ want got => some (b!"should be ", b!"'" ++ want.typ ++ b!"'", b!"'" ++ got.typ ++ b!"'")
  | .badText _ want got => some (b!"want ", want, got)
  | .badCount _ want got => some (b!"want ", intText want, intText got)
  | _ => none

/-- **C86.** A message that names what was wanted and what was found does not mix them up:
the first follows the word `want` (or `should be`), the second the word `got`. -/
theorem C86_sides (eq : Str → Str → Bool) (c : Call) (m : Str) (h : c.run eq = some m)
    (word want got : Str) (hs : c.sides = some (word, want, got)) :
    word ++ want ++ b!", got " ++ got <:+: m := by
  cases c <;> simp only [Call.sides, reduceCtorEq, Option.some.injEq, Prod.mk.injEq] at hs
  all_goals obtain ⟨rfl, rfl, rfl⟩ := hs
  case badClockTime raw got =>
    simp only [Call.run, badClockTimeErr] at h
    rw [errorf_some (of_if h)]
    exact ⟨b!"Unexpected " ++ BindKeyword.string BindToD ++ b!" clock time parsing result; ",
      b!" (hint: use military time; 0000 through 2400)", by
        simp [sprintf, format, extra, strVal, bkwVal]⟩
  case badFactor raw got =>
    simp only [Call.run, badSecurityStrengthFactorErr] at h
    rw [errorf_some (of_if h)]
    exact ⟨b!"Unexpected security strength factor parsing result; ", b!" (hint: valid range is 0-256)", by
      simp [sprintf, format, extra, strVal]⟩
  case bindCount key want got =>
    simp only [Call.run, unexpectedBindConditionValueErr] at h
    rw [errorf_some (of_if h)]
    exact ⟨b!"Unexpected number of " ++ BindKeyword.string key ++ b!" values; ", [], by
      simp [sprintf, format, extra, intVal, bkwVal]⟩
  case badIP want got =>
    simp only [Call.run, badIPErr] at h
    rw [errorf_some (of_if h)]
    exact ⟨b!"Unexpected '" ++ BindKeyword.string BindIP ++ b!"' values parsed; ", [], by
      simp [sprintf, format, extra, intVal, bkwVal]⟩
  case badDNS raw got =>
    simp only [Call.run, badDNSErr] at h
    rw [errorf_some (of_if h)]
    exact ⟨b!"Unexpected '" ++ BindKeyword.string BindDNS ++ b!"' values parsed; ", [], by
      simp [sprintf, format, extra, strVal, bkwVal]⟩
  case badAM raw got =>
    simp only [Call.run, badAMErr] at h
    rw [errorf_some (of_if h)]
    exact ⟨b!"Unexpected " ++ BindKeyword.string BindAM ++ b!" auth method parsing result; ", [], by
      simp [sprintf, format, extra, strVal, bkwVal]⟩
  case badKeyword cand typ want got =>
    simp only [Call.run, badPTBRuleKeywordErr] at h
    rw [errorf_some h]
    exact ⟨b!"Unknown or unresolvable " ++ typ ++ b!" rule keyword or category for " ++ cand.typ ++ b!": ", [], by
      simp [sprintf, format, extra, strVal]⟩
  case badKind rec want got =>
    simp only [Call.run, unexpectedKindErr] at h
    rw [errorf_some h]
    exact ⟨b!"Unexpected " ++ rec.typ ++ b!".Kind result: ", [], by
      simp [sprintf, format, extra, strVal]⟩
  case badSlice rec want got =>
    simp only [Call.run, illegalSliceTypeErr] at h
    rw [errorf_some h]
    exact ⟨b!"Illegal slice type within " ++ rec.typ ++ b!" stack: ", [], by
      simp [sprintf, format, extra]⟩
  case badText typ want got =>
    simp only [Call.run, unexpectedStringResult] at h
    rw [errorf_some h]
    exact ⟨b!"Unexpected string " ++ typ ++ b!" result; ", [], by
      simp [sprintf, format, extra, strVal]⟩
  case badCount typ want got =>
    simp only [Call.run, unexpectedValueCountErr] at h
    rw [errorf_some h]
    exact ⟨b!"Unexpected number of " ++ typ ++ b!" values; ", [], by
      simp [sprintf, format, extra, strVal, intVal]⟩

example : b!"want 2, got 3" <:+: b!"Unexpected number of ssf values; want 2, got 3" :=
  C86_sides Str.eqFold (.bindCount BindSSF 2 3) _ (by decide +kernel) _ _ _ rfl

/-- The arguments of the call have no percent sign in their types and texts. -/
def Call.plain : Call → Prop
  | .nilInstance x => Plain x
  | .badInh bad => 37 ∉ bad
  | .badCop i => Plain i
  | .badClockTime raw got => 37 ∉ raw ∧ 37 ∉ got
  | .badFactor raw got => 37 ∉ raw ∧ 37 ∉ got
  | .bindCount _ _ _ => True
  | .badIP _ _ => True
  | .badDNS raw got => 37 ∉ raw ∧ 37 ∉ got
  | .badAM raw got => 37 ∉ raw ∧ 37 ∉ got
  | .badKeyword cand typ want got => Plain cand ∧ 37 ∉ typ ∧ 37 ∉ want.text ∧ 37 ∉ got.text
  | .noValues cand typ key => Plain cand ∧ 37 ∉ typ ∧ (∀ s, key = some s → 37 ∉ s)
  | .badPair x => 37 ∉ x
  | .badOid x => 37 ∉ x
  | .badOidKeyword _ => True
  | .badKind rec want got => Plain rec ∧ 37 ∉ want ∧ 37 ∉ got
  | .badSlice rec want got => Plain rec ∧ Plain want ∧ Plain got
  | .badSyntax cand key er => Plain cand ∧ (∀ s, key = some s → 37 ∉ s) ∧ (∀ s, some s ∈ er → 37 ∉ s)
  | .badSplit _ _ _ _ char => 37 ∉ char
  | .noPrefix => True
  | .badPrefix => True
  | .badScheme => True
  | .noDelimiter af => Plain af
  | .noLabel => True
  | .noLevels => True
  | .noRight x => 37 ∉ x
  | .badTime => True
  | .badDay x => Plain x
  | .noDisposition => True
  | .badLabel x => Plain x
  | .badLength _ => True
  | .badExpr rec want got => Plain rec ∧ Plain want ∧ Plain got
  | .badTree stk b => Plain stk ∧ Plain b
  | .badText typ want got => 37 ∉ typ ∧ 37 ∉ want ∧ 37 ∉ got
  | .badCount typ _ _ => 37 ∉ typ
  | .bogus typ x => 37 ∉ typ ∧ 37 ∉ x
  | .general typ err => 37 ∉ typ ∧ (∀ s, err = some s → 37 ∉ s)
  | .noValue cand typ => Plain cand ∧ 37 ∉ typ
  | .notUnique rec cand key er => Plain rec ∧ Plain cand ∧ (∀ s, key = some s → 37 ∉ s) ∧ (∀ s, some s ∈ er → 37 ∉ s)
  | .nilOrZero rec cand key er => Plain rec ∧ Plain cand ∧ (∀ s, key = some s → 37 ∉ s) ∧ (∀ s, some s ∈ er → 37 ∉ s)
  | .badType rec cand key er => Plain rec ∧ Plain cand ∧ (∀ s, key = some s → 37 ∉ s) ∧ (∀ s, some s ∈ er → 37 ∉ s)

/-- The claim of C86 about complaints of the fmt package: they begin with a percent sign,
which no message has of its own. -/
def MessagesComplete : Prop :=
  ∀ (E : EqualFold) (c : Call) (m : Str), c.run E.eq = some m → c.plain → 37 ∉ m

/-- **C86 does not hold.** `pushErrorNilOrZero` without a cause, as /repo/attr.go:741,
/repo/dn.go:1413, /repo/filter.go:668 and /repo/target.go:680, 686 call it: its text wants a cause. -/
theorem C86_counterexample : ¬ MessagesComplete := by
  intro h
  refine h EqualFold.ref (.nilOrZero (.txt b!"aci.TargetRules" []) (.txt b!"aci.TargetRule" []) none [])
    b!"Cannot push zero-length or nil aci.TargetRule into aci.TargetRules [<unspecified_keyword>]: %!v(MISSING)"
    (by decide +kernel) ?_ (by decide +kernel)
  exact ⟨by simp [Plain], by simp [Plain], by simp, by simp⟩

/-- **C86 does not hold.** A cause handed to `pushErrorNotUnique` is not asked for by the
text. -/
theorem C86_counterexample_extra : ¬ MessagesComplete := by
  intro h
  refine h EqualFold.ref (.notUnique (.txt b!"aci.TargetRules" []) (.txt b!"aci.TargetRule" []) none [some b!"x"])
    b!"Cannot push non-unique or ineligible aci.TargetRule into aci.TargetRules [<unspecified_keyword>]%!(EXTRA *errors.errorString=x)"
    (by decide +kernel) ?_ (by decide +kernel)
  exact ⟨by simp [Plain], by simp [Plain], by simp, by simp⟩

/-- The calls whose text does not suit their arguments. -/
def Call.unsuited : Call → Prop
  | .nilOrZero _ _ _ er => er.head?.join = none
  | .notUnique _ _ _ er => er.head?.join ≠ none
  | .badType _ _ _ er => er.head?.join ≠ none
  | .noValues _ _ key => key = none
  | _ => False

theorem firstErr_head (er : List (Option Str)) : firstErr er = er.head?.join := by cases er <;> rfl

theorem lookup_plain {m : List (UInt8 × Str)} {d : Str} (hd : 37 ∉ d)
    (hm : ∀ p ∈ m, 37 ∉ p.2) (k : UInt8) : 37 ∉ lookupD m d k := by
  unfold lookupD
  split
  · rename_i e he; exact hm e (List.mem_of_find?_eq_some he)
  · exact hd

theorem bkw_plain (k : BindKeyword) : 37 ∉ BindKeyword.string k :=
  lookup_plain (by decide +kernel) (by decide +kernel) k

theorem tkw_plain (k : TargetKeyword) : 37 ∉ TargetKeyword.string k :=
  lookup_plain (by decide +kernel) (by decide +kernel) k

theorem nat_plain (n : Nat) : 37 ∉ Str.ofNat n := by
  intro h
  have := (Str.ofNat_digits n 37 h).1
  exact absurd this (by decide)

theorem int_plain (n : Int) : 37 ∉ intText n := by
  unfold intText
  split
  · simp [nat_plain]
  · exact nat_plain _

theorem key_plain {k : Option Str} (h : ∀ s, k = some s → 37 ∉ s) : 37 ∉ keyText k := by
  cases k with
  | none => decide +kernel
  | some s => exact h s rfl

theorem firstErr_mem {er : List (Option Str)} {e : Str} (h : firstErr er = some e) : some e ∈ er := by
  cases er with
  | nil => cases h
  | cons a l => simp [firstErr] at h; simp [h]

theorem plain_txt {t s : Str} : Plain (.txt t s) ↔ 37 ∉ t ∧ 37 ∉ s := Iff.rfl
theorem plain_num {t s c : Str} : Plain (.num t s c) ↔ 37 ∉ t ∧ 37 ∉ s ∧ 37 ∉ c := Iff.rfl
theorem plain_nil : Plain .nil := trivial

theorem plain_push {emsg : Str} {w : List Byte} (hv : verbs emsg = some ([84, 84, 115] ++ w))
    {r c : Val} {k : Option Str} {er : List (Option Str)} {m : Str}
    (hw : w = match firstErr er with | some _ => [118] | none => [])
    (hm : pushError r c k emsg er = some m) (hr : Plain r) (hc : Plain c)
    (hk : ∀ s, k = some s → 37 ∉ s) (he : ∀ s, some s ∈ er → 37 ∉ s) : 37 ∉ m := by
  have hk := key_plain hk
  unfold pushError at hm
  split at hm
  · rename_i e hf
    rw [hf] at hw
    subst hw
    exact plain_of hv hm rfl (by simp [hr, hc, plain_txt, strVal, errVal, hk, he e (firstErr_mem hf)])
  · rename_i hf
    rw [hf] at hw
    subst hw
    exact plain_of hv hm rfl (by simp [hr, hc, plain_txt, strVal, hk])

/-- **C86 (part).** Apart from the four unsuited calls every message is complete: every
verb has a value that suits it, and every value has a verb.
Missing: a zero-length refusal without a cause, a not-unique or bad-type refusal with a
cause, and a missing keyword in `noTBRuleExpressionValues`, for which the claim fails. -/
theorem C86_complete_partial (eq : Str → Str → Bool) (c : Call) (m : Str)
    (h : c.run eq = some m) (hp : c.plain) (hu : ¬ c.unsuited) : 37 ∉ m := by
  cases c with
  | nilInstance x =>
    simp only [Call.plain] at hp
    simp only [Call.run, nilInstanceErr] at h
    exact plain_of (vs := [84]) (by decide +kernel) h rfl (by simp [plain_txt, plain_num, strVal, intVal, bkwVal, tkwVal, afoVal, aopVal, insVal, fqdnVal, int_plain, nat_plain, bkw_plain, tkw_plain, hp])
  | badInh bad =>
    simp only [Call.plain] at hp
    simp only [Call.run, badInhErr] at h
    exact plain_of (vs := [115]) (by decide +kernel) h rfl (by simp [plain_txt, plain_num, strVal, intVal, bkwVal, tkwVal, afoVal, aopVal, insVal, fqdnVal, int_plain, nat_plain, bkw_plain, tkw_plain, hp])
  | badCop i =>
    simp only [Call.plain] at hp
    simp only [Call.run, badCopErr] at h
    exact plain_of (vs := [84]) (by decide +kernel) h rfl (by simp [plain_txt, plain_num, strVal, intVal, bkwVal, tkwVal, afoVal, aopVal, insVal, fqdnVal, int_plain, nat_plain, bkw_plain, tkw_plain, hp])
  | badClockTime raw got =>
    simp only [Call.plain] at hp
    simp only [Call.run, badClockTimeErr] at h
    exact plain_of (vs := [115, 115, 115]) (by decide +kernel) (of_if h) rfl (by simp [plain_txt, plain_num, strVal, intVal, bkwVal, tkwVal, afoVal, aopVal, insVal, fqdnVal, int_plain, nat_plain, bkw_plain, tkw_plain, hp])
  | badFactor raw got =>
    simp only [Call.plain] at hp
    simp only [Call.run, badSecurityStrengthFactorErr] at h
    exact plain_of (vs := [115, 115]) (by decide +kernel) (of_if h) rfl (by simp [plain_txt, plain_num, strVal, intVal, bkwVal, tkwVal, afoVal, aopVal, insVal, fqdnVal, int_plain, nat_plain, bkw_plain, tkw_plain, hp])
  | bindCount key want got =>
    simp only [Call.plain] at hp
    simp only [Call.run, unexpectedBindConditionValueErr] at h
    exact plain_of (vs := [115, 100, 100]) (by decide +kernel) (of_if h) rfl (by simp [plain_txt, plain_num, strVal, intVal, bkwVal, tkwVal, afoVal, aopVal, insVal, fqdnVal, int_plain, nat_plain, bkw_plain, tkw_plain, hp])
  | badIP want got =>
    simp only [Call.plain] at hp
    simp only [Call.run, badIPErr] at h
    exact plain_of (vs := [115, 100, 100]) (by decide +kernel) (of_if h) rfl (by simp [plain_txt, plain_num, strVal, intVal, bkwVal, tkwVal, afoVal, aopVal, insVal, fqdnVal, int_plain, nat_plain, bkw_plain, tkw_plain, hp])
  | badDNS raw got =>
    simp only [Call.plain] at hp
    simp only [Call.run, badDNSErr] at h
    exact plain_of (vs := [115, 115, 115]) (by decide +kernel) (of_if h) rfl (by simp [plain_txt, plain_num, strVal, intVal, bkwVal, tkwVal, afoVal, aopVal, insVal, fqdnVal, int_plain, nat_plain, bkw_plain, tkw_plain, hp])
  | badAM raw got =>
    simp only [Call.plain] at hp
    simp only [Call.run, badAMErr] at h
    exact plain_of (vs := [115, 115, 115]) (by decide +kernel) (of_if h) rfl (by simp [plain_txt, plain_num, strVal, intVal, bkwVal, tkwVal, afoVal, aopVal, insVal, fqdnVal, int_plain, nat_plain, bkw_plain, tkw_plain, hp])
  | badKeyword cand typ want got =>
    simp only [Call.plain] at hp
    simp only [Call.run, badPTBRuleKeywordErr] at h
    exact plain_of (vs := [115, 84, 115, 115]) (by decide +kernel) h rfl (by simp [plain_txt, plain_num, strVal, intVal, bkwVal, tkwVal, afoVal, aopVal, insVal, fqdnVal, int_plain, nat_plain, bkw_plain, tkw_plain, hp])
  | noValues cand typ key =>
    obtain ⟨h1, h2, h3⟩ := hp
    simp only [Call.run, noTBRuleExpressionValues] at h
    cases key with
    | none => exact absurd rfl hu
    | some s =>
      exact plain_of (vs := [115, 115, 84]) (by decide +kernel) h rfl
        (by simp [plain_txt, strVal, kwVal, h1, h2, h3 s rfl])
  | badPair x =>
    simp only [Call.plain] at hp
    simp only [Call.run, badAttributeBindTypeOrValueErr] at h
    exact plain_of (vs := [115]) (by decide +kernel) h rfl (by simp [plain_txt, plain_num, strVal, intVal, bkwVal, tkwVal, afoVal, aopVal, insVal, fqdnVal, int_plain, nat_plain, bkw_plain, tkw_plain, hp])
  | badOid x =>
    simp only [Call.plain] at hp
    simp only [Call.run, badObjectIdentifierErr] at h
    exact plain_of (vs := [115]) (by decide +kernel) h rfl (by simp [plain_txt, plain_num, strVal, intVal, bkwVal, tkwVal, afoVal, aopVal, insVal, fqdnVal, int_plain, nat_plain, bkw_plain, tkw_plain, hp])
  | badOidKeyword key =>
    simp only [Call.plain] at hp
    simp only [Call.run, badObjectIdentifierKeywordErr] at h
    exact plain_of (vs := [115, 84, 115]) (by decide +kernel) h rfl (by simp [plain_txt, plain_num, strVal, intVal, bkwVal, tkwVal, afoVal, aopVal, insVal, fqdnVal, int_plain, nat_plain, bkw_plain, tkw_plain, hp])
  | badKind rec want got =>
    simp only [Call.plain] at hp
    simp only [Call.run, unexpectedKindErr] at h
    exact plain_of (vs := [84, 115, 115]) (by decide +kernel) h rfl (by simp [plain_txt, plain_num, strVal, intVal, bkwVal, tkwVal, afoVal, aopVal, insVal, fqdnVal, int_plain, nat_plain, bkw_plain, tkw_plain, hp])
  | badSlice rec want got =>
    simp only [Call.plain] at hp
    simp only [Call.run, illegalSliceTypeErr] at h
    exact plain_of (vs := [84, 84, 84]) (by decide +kernel) h rfl (by simp [plain_txt, plain_num, strVal, intVal, bkwVal, tkwVal, afoVal, aopVal, insVal, fqdnVal, int_plain, nat_plain, bkw_plain, tkw_plain, hp])
  | badSplit d l o c char =>
    simp only [Call.plain] at hp
    simp only [Call.run, afosNonIdempSplitErr] at h
    exact plain_of (vs := [100, 99, 100, 100]) (by decide +kernel) h rfl (by simp [plain_txt, plain_num, strVal, intVal, bkwVal, tkwVal, afoVal, aopVal, insVal, fqdnVal, int_plain, nat_plain, bkw_plain, tkw_plain, hp])
  | noPrefix =>
    simp only [Call.plain] at hp
    simp only [Call.run, afoMissingPrefixErr] at h
    exact plain_of (vs := [84, 84]) (by decide +kernel) h rfl (by simp [plain_txt, plain_num, strVal, intVal, bkwVal, tkwVal, afoVal, aopVal, insVal, fqdnVal, int_plain, nat_plain, bkw_plain, tkw_plain, hp])
  | badPrefix =>
    simp only [Call.plain] at hp
    simp only [Call.run, aoBadPrefixErr] at h
    exact plain_of (vs := [84]) (by decide +kernel) h rfl (by simp [plain_txt, plain_num, strVal, intVal, bkwVal, tkwVal, afoVal, aopVal, insVal, fqdnVal, int_plain, nat_plain, bkw_plain, tkw_plain, hp])
  | badScheme =>
    simp only [Call.plain] at hp
    simp only [Call.run, uriBadPrefixErr] at h
    exact plain_of (vs := [84, 115]) (by decide +kernel) h rfl (by simp [plain_txt, plain_num, strVal, intVal, bkwVal, tkwVal, afoVal, aopVal, insVal, fqdnVal, int_plain, nat_plain, bkw_plain, tkw_plain, hp])
  | noDelimiter af =>
    simp only [Call.plain] at hp
    simp only [Call.run, afMissingDelimiterErr] at h
    exact plain_of (vs := [99, 84]) (by decide +kernel) h rfl (by simp [plain_txt, plain_num, strVal, intVal, bkwVal, tkwVal, afoVal, aopVal, insVal, fqdnVal, int_plain, nat_plain, bkw_plain, tkw_plain, hp])
  | noLabel =>
    simp only [Call.plain] at hp
    simp only [Call.run, instructionNoLabelErr] at h
    exact plain_of (vs := [84, 84]) (by decide +kernel) h rfl (by simp [plain_txt, plain_num, strVal, intVal, bkwVal, tkwVal, afoVal, aopVal, insVal, fqdnVal, int_plain, nat_plain, bkw_plain, tkw_plain, hp])
  | noLevels =>
    simp only [Call.plain] at hp
    simp only [Call.run, levelsNotFoundErr] at h
    exact plain_of (vs := []) (by decide +kernel) h rfl (by simp [plain_txt, plain_num, strVal, intVal, bkwVal, tkwVal, afoVal, aopVal, insVal, fqdnVal, int_plain, nat_plain, bkw_plain, tkw_plain, hp])
  | noRight x =>
    simp only [Call.plain] at hp
    simp only [Call.run, rightNotfound] at h
    exact plain_of (vs := [115]) (by decide +kernel) h rfl (by simp [plain_txt, plain_num, strVal, intVal, bkwVal, tkwVal, afoVal, aopVal, insVal, fqdnVal, int_plain, nat_plain, bkw_plain, tkw_plain, hp])
  | badTime =>
    simp only [Call.plain] at hp
    simp only [Call.run, dowBadTimeErr] at h
    exact plain_of (vs := [84]) (by decide +kernel) h rfl (by simp [plain_txt, plain_num, strVal, intVal, bkwVal, tkwVal, afoVal, aopVal, insVal, fqdnVal, int_plain, nat_plain, bkw_plain, tkw_plain, hp])
  | badDay x =>
    simp only [Call.plain] at hp
    simp only [Call.run, dowBadDayErr] at h
    exact plain_of (vs := [84, 118]) (by decide +kernel) h rfl (by simp [plain_txt, plain_num, strVal, intVal, bkwVal, tkwVal, afoVal, aopVal, insVal, fqdnVal, int_plain, nat_plain, bkw_plain, tkw_plain, hp])
  | noDisposition =>
    simp only [Call.plain] at hp
    simp only [Call.run, noPermissionDispErr] at h
    exact plain_of (vs := [84]) (by decide +kernel) h rfl (by simp [plain_txt, plain_num, strVal, intVal, bkwVal, tkwVal, afoVal, aopVal, insVal, fqdnVal, int_plain, nat_plain, bkw_plain, tkw_plain, hp])
  | badLabel x =>
    simp only [Call.plain] at hp
    simp only [Call.run, fqdnInvalidLabelErr] at h
    exact plain_of (vs := [84, 118]) (by decide +kernel) h rfl (by simp [plain_txt, plain_num, strVal, intVal, bkwVal, tkwVal, afoVal, aopVal, insVal, fqdnVal, int_plain, nat_plain, bkw_plain, tkw_plain, hp])
  | badLength l =>
    simp only [Call.plain] at hp
    simp only [Call.run, fqdnInvalidLenErr] at h
    exact plain_of (vs := [84, 100, 100]) (by decide +kernel) h rfl (by simp [plain_txt, plain_num, strVal, intVal, bkwVal, tkwVal, afoVal, aopVal, insVal, fqdnVal, int_plain, nat_plain, bkw_plain, tkw_plain, hp])
  | badExpr rec want got =>
    simp only [Call.plain] at hp
    simp only [Call.run, parseBindRuleInvalidExprTypeErr] at h
    exact plain_of (vs := [84, 84, 84]) (by decide +kernel) h rfl (by simp [plain_txt, plain_num, strVal, intVal, bkwVal, tkwVal, afoVal, aopVal, insVal, fqdnVal, int_plain, nat_plain, bkw_plain, tkw_plain, hp])
  | badTree stk b =>
    simp only [Call.plain] at hp
    simp only [Call.run, parseBindRulesHierErr] at h
    exact plain_of (vs := [84, 84]) (by decide +kernel) h rfl (by simp [plain_txt, plain_num, strVal, intVal, bkwVal, tkwVal, afoVal, aopVal, insVal, fqdnVal, int_plain, nat_plain, bkw_plain, tkw_plain, hp])
  | badText typ want got =>
    simp only [Call.plain] at hp
    simp only [Call.run, unexpectedStringResult] at h
    exact plain_of (vs := [115, 115, 115]) (by decide +kernel) h rfl (by simp [plain_txt, plain_num, strVal, intVal, bkwVal, tkwVal, afoVal, aopVal, insVal, fqdnVal, int_plain, nat_plain, bkw_plain, tkw_plain, hp])
  | badCount typ want got =>
    simp only [Call.plain] at hp
    simp only [Call.run, unexpectedValueCountErr] at h
    exact plain_of (vs := [115, 100, 100]) (by decide +kernel) h rfl (by simp [plain_txt, plain_num, strVal, intVal, bkwVal, tkwVal, afoVal, aopVal, insVal, fqdnVal, int_plain, nat_plain, bkw_plain, tkw_plain, hp])
  | bogus typ x =>
    simp only [Call.plain] at hp
    simp only [Call.run, bogusValueErr] at h
    exact plain_of (vs := [115, 115]) (by decide +kernel) h rfl (by simp [plain_txt, plain_num, strVal, intVal, bkwVal, tkwVal, afoVal, aopVal, insVal, fqdnVal, int_plain, nat_plain, bkw_plain, tkw_plain, hp])
  | general typ err =>
    obtain ⟨h1, h2⟩ := hp
    simp only [Call.run, generalErr] at h
    refine plain_of (vs := [115, 118]) (by decide +kernel) h rfl ?_
    cases err with
    | none => simp [plain_txt, plain_nil, strVal, errVal, h1]
    | some s => simp [plain_txt, strVal, errVal, h1, h2 s rfl]
  | noValue cand typ =>
    simp only [Call.plain] at hp
    simp only [Call.run, noValueErr] at h
    exact plain_of (vs := [115, 84]) (by decide +kernel) h rfl (by simp [plain_txt, plain_num, strVal, intVal, bkwVal, tkwVal, afoVal, aopVal, insVal, fqdnVal, int_plain, nat_plain, bkw_plain, tkw_plain, hp])
  | badSyntax cand key er =>
    obtain ⟨h1, h2, h3⟩ := hp
    have h2 := key_plain h2
    simp only [Call.run, illegalSyntaxPerTypeErr] at h
    split at h
    · rename_i e he
      exact plain_of (vs := [84, 115, 118]) (by decide +kernel) h rfl
        (by simp [plain_txt, strVal, errVal, h1, h2, h3 e (firstErr_mem he)])
    · exact plain_of (vs := [84, 115]) (by decide +kernel) h rfl (by simp [plain_txt, strVal, h1, h2])
  | notUnique r c k er =>
    simp only [Call.run, pushErrorNotUnique] at h
    obtain ⟨h1, h2, h3, h4⟩ := hp
    have hf : firstErr er = none := by simpa [Call.unsuited, firstErr_head] using hu
    exact plain_push (w := []) (by decide +kernel) (by rw [hf]) h h1 h2 h3 h4
  | nilOrZero r c k er =>
    simp only [Call.run, pushErrorNilOrZero] at h
    obtain ⟨h1, h2, h3, h4⟩ := hp
    cases hf : firstErr er with
    | none => exact absurd ((firstErr_head er).symm.trans hf) hu
    | some e => exact plain_push (w := [118]) (by decide +kernel) (by rw [hf]) h h1 h2 h3 h4
  | badType r c k er =>
    simp only [Call.run, pushErrorBadType] at h
    obtain ⟨h1, h2, h3, h4⟩ := hp
    have hf : firstErr er = none := by simpa [Call.unsuited, firstErr_head] using hu
    exact plain_push (w := []) (by decide +kernel) (by rw [hf]) h h1 h2 h3 h4

example : (Call.bogus b!"targetscope" b!"none").plain ∧ ¬ (Call.bogus b!"targetscope" b!"none").unsuited
    ∧ ∃ m, (Call.bogus b!"targetscope" b!"none").run Str.eqFold = some m :=
  ⟨⟨by decide, by decide⟩, fun h => h, _, rfl⟩

end Verif.Err
