import Verif.Props.Walk
import Verif.Props.Net
import Verif.Props.DN
import Verif.Lemmas.Uri
import Verif.Lemmas.Num
import Verif.Model.Scope
import Verif.Model.Ins

/-!
# Quotation marks in values: property C138

The value of a rule is printed between quotation marks, and marks inside it are printed as they are.  A value that
holds one can end its quotation and go on with further rules.
-/

namespace Verif.Quotes
open Verif Verif.Spec Verif.Misc Verif.Bind Verif.Builders

theorem clean_join {sep : Str} {l : List Str} (hs : 34 ∉ sep) (h : ∀ s ∈ l, 34 ∉ s) : 34 ∉ Str.join sep l := by
  intro hc
  rcases Uri.join_mem hc with hc | ⟨s, hm, hc⟩
  · exact hs hc
  · exact h s hm hc

theorem clean_ofNat (n : Nat) : 34 ∉ Str.ofNat n := by
  intro h
  exact absurd (Str.ofNat_digits n 34 h).1 (by decide)

theorem clean_day (d : Time.Day) : 34 ∉ Time.Day.string d := by
  unfold Time.Day.string
  repeat' split
  all_goals decide +kernel

theorem clean_right (r : Rights.Right) : 34 ∉ Rights.Right.string r := by
  unfold Rights.Right.string
  have : ∀ e ∈ Rights.rightsMap, 34 ∉ e.2 := by decide +kernel
  split
  · exact this _ (List.mem_of_find?_eq_some (by assumption))
  · simp

theorem clean_method {m : List (Str × Sec.AuthenticationMethod)} (h : m.Perm Sec.authNames) (low : Bool)
    (a : Sec.AuthenticationMethod) : 34 ∉ Sec.authString m low a := by
  have hc : ∀ low : Bool, ∀ e ∈ Sec.authNames, 34 ∉ Sec.foldAuthenticationMethod low e.1 := by decide +kernel
  rw [Walk.authString_find]
  cases e : m.find? fun e => decide (e.2 = a) with
  | none => simp
  | some x => simpa using hc low x (h.mem_iff.1 (List.mem_of_find?_eq_some e))

theorem clean_level (l : Levels.Level) : 34 ∉ Levels.levelString l := by
  rw [Levels.levelString, Walk.text_find]
  have hc : ∀ e ∈ Levels.levelNumbers, 34 ∉ e.1 := by decide +kernel
  cases e : Levels.levelNumbers.find? fun e => decide (l = e.2) with
  | none => simp
  | some x => simpa using hc x (List.mem_of_find?_eq_some e)

theorem clean_lookup {m : List (UInt8 × Str)} {d : Str} (hd : 34 ∉ d) (h : ∀ e ∈ m, 34 ∉ e.2) (k : UInt8) :
    34 ∉ lookupD m d k := by
  unfold lookupD
  cases e : m.find? _ with
  | none => simpa using hd
  | some x => simpa using h x (List.mem_of_find?_eq_some e)

theorem clean_bkw (k : BindKeyword) : 34 ∉ BindKeyword.string k := by
  unfold BindKeyword.string
  exact clean_lookup (by decide +kernel) (by decide +kernel) k

theorem clean_cop (c : Cop) : 34 ∉ Cop.string c := by
  unfold Cop.string
  repeat' split
  all_goals decide +kernel

/-- **C138** for values that are chosen, not written: no text of days, times of day, strength factors, authentication
methods, levels, permissions, scopes, keywords and operators has a quotation mark. -/
theorem C138_words (S : Shifty 8) (L : Shifty 16) (low : Bool) (m : List (Str × Sec.AuthenticationMethod))
    (hm : m.Perm Sec.authNames) :
    (∀ d, 34 ∉ Time.string S d) ∧ (∀ t, 34 ∉ Time.TimeOfDay.string t) ∧ (∀ f, 34 ∉ Sec.string f) ∧
    (∀ a, 34 ∉ Sec.authString m low a) ∧ (∀ v, 34 ∉ Levels.levelsString L v) ∧ (∀ p, 34 ∉ Rights.string L p) ∧
    (∀ s, 34 ∉ SearchScope.string s) ∧ (∀ k, 34 ∉ BindKeyword.string k) ∧ (∀ k, 34 ∉ TargetKeyword.string k) ∧
    (∀ c, 34 ∉ Cop.string c) := by
  refine ⟨fun d => ?_, fun t => ?_, fun f => ?_, fun a => clean_method hm low a, fun v => ?_, fun p => ?_, fun s => ?_,
    clean_bkw, fun k => ?_, clean_cop⟩
  · unfold Time.string
    dsimp only
    split
    · refine clean_join (by decide) fun s hs => ?_
      obtain ⟨i, _, rfl⟩ := List.mem_map.1 hs
      exact clean_day _
    · decide +kernel
  · unfold Time.TimeOfDay.string
    split
    · decide +kernel
    · simp only [Time.padDec, List.mem_append, List.mem_replicate, not_or]
      exact ⟨by simp, clean_ofNat _⟩
  · unfold Sec.string
    split
    · exact clean_ofNat _
    · decide +kernel
  · unfold Levels.levelsString
    split
    · refine clean_join (by decide) fun s hs => ?_
      obtain ⟨i, _, rfl⟩ := List.mem_map.1 hs
      exact clean_level _
    · decide +kernel
  · have hs : ∀ rs : List Str, (∀ r ∈ rs, 34 ∉ r) → 34 ∉ Rights.sprintf p rs := by
      intro rs hr
      have hd : 34 ∉ Rights.disposition p := by
        unfold Rights.disposition
        repeat' split
        all_goals decide +kernel
      simp only [Rights.sprintf, List.mem_append, not_or]
      exact ⟨⟨⟨hd, by decide⟩, clean_join (by decide) hr⟩, by decide⟩
    unfold Rights.string
    split
    · decide +kernel
    · repeat' split
      · exact hs _ (by simp [clean_right])
      · exact hs _ (by simp [clean_right])
      · exact hs _ (by simp [clean_right])
      · refine hs _ fun r hr => ?_
        obtain ⟨i, _, rfl⟩ := List.mem_map.1 hr
        exact clean_right _
  · unfold SearchScope.string SearchScope.targetScope
    repeat' split
    all_goals decide +kernel
  · unfold TargetKeyword.string
    exact clean_lookup (by decide +kernel) (by decide +kernel) k

example : Time.TimeOfDay.string (Time.ToD [.str b!"1200"]) = b!"1200" := by decide +kernel

theorem clean_address {x : Str} (h : Net.isValidIP x = true) : 34 ∉ x := by
  intro hc
  have : ∀ c : Byte, c = 34 → Net.isValidV4Char (Net.lowFirst c) = false ∧ Net.isValidV6Char (Net.lowFirst c) = false := by
    rintro _ rfl; decide
  simp only [Net.isValidIP, Bool.or_eq_true] at h
  rcases h with h | h
  · unfold Net.isV4 at h
    split at h
    · cases h
    · have := (List.all_eq_true.1 h) 34 hc
      revert this; decide
  · unfold Net.isV6 at h
    split at h
    · cases h
    · have := (List.all_eq_true.1 h) 34 hc
      revert this; decide

theorem ipSet_clean : ∀ (xs r : List Str), (∀ s ∈ r, 34 ∉ s) → ∀ s ∈ Net.ipSet r xs, 34 ∉ s
  | [], r, h => h
  | a :: t, r, h => by
    unfold Net.ipSet
    split
    · split
      · rename_i hv
        refine ipSet_clean t _ fun s hs => ?_
        rcases List.mem_append.1 hs with hs | hs
        · exact h s hs
        · rw [List.mem_singleton.1 hs]; exact clean_address hv
      · exact ipSet_clean t r h
    · exact ipSet_clean t r h

theorem clean_ident {x : Str} (h : isIdentifier x = true) : 34 ∉ x := by
  intro hc
  unfold isIdentifier at h
  split at h
  · cases hc
  · split at h
    · cases h
    · split at h
      · cases h
      · have := (List.all_eq_true.1 h) 34 hc
        revert this; decide

/-- **C138** for addresses, host names and attributes: whatever is offered to them, by any number of calls, their texts
have no quotation mark. -/
theorem C138_checked :
    (∀ (first : List Str) (calls : List (List Str)), 34 ∉ (calls.foldl Net.IPAddr.set (Net.IP first)).string) ∧
    (∀ (first : List Str) (calls : List (List Str)), 34 ∉ (calls.foldl Net.FQDN.set (Net.DNS first)).string) ∧
    (∀ x, 34 ∉ (Attr.AT x).string) := by
  refine ⟨fun first calls => ?_, fun first calls => ?_, fun x => ?_⟩
  · have key : ∀ (calls : List (List Str)) (r : Net.IPAddr), (∀ s ∈ r.getD [], 34 ∉ s) →
        ∀ s ∈ (calls.foldl Net.IPAddr.set r).getD [], 34 ∉ s := by
      intro calls
      induction calls with
      | nil => intro r h; exact h
      | cons c calls ih => intro r h; exact ih _ (ipSet_clean c _ h)
    have := key calls (Net.IP first) (ipSet_clean first [] (by simp))
    unfold Net.IPAddr.string
    split
    · decide +kernel
    · rename_i l hl
      rw [hl] at this
      exact clean_join (by decide) this
  · have hr : Net.Reachable (calls.foldl Net.FQDN.set (Net.DNS first)) := by
      have key : ∀ (calls : List (List Str)) (r : Net.FQDN), Net.Reachable r → Net.Reachable (calls.foldl Net.FQDN.set r) := by
        intro calls
        induction calls with
        | nil => intro r h; exact h
        | cons c calls ih => intro r h; exact ih _ (.set _ _ h)
      exact key calls _ (.dns _)
    have hl := Net.C24_labels_partial _ hr
    unfold Net.FQDN.string
    split
    · decide +kernel
    · refine clean_join (by decide) fun s hs hc => ?_
      have := (hl s hs).2.2.1 34 hc
      revert this; decide
  · unfold Attr.AT
    split
    · rename_i h
      simp only [Bool.or_eq_true, beq_iff_eq] at h
      rcases h with h | rfl
      · exact clean_ident h
      · decide
    · decide +kernel

example : (Net.IPAddr.set (Net.IP [b!"10.0.0.1\""]) [b!"10.0.0.*"]).string = b!"10.0.0.*" := by decide +kernel

/-- A quotation that its value cannot end: nothing at all, or one pair of marks around the value at the end. -/
def OneQuotation (text : Str) : Prop :=
  text = [] ∨ ∃ front value : Str, text = front ++ b!"\"" ++ value ++ b!"\"" ∧ 34 ∉ front ∧ 34 ∉ value

/-- **C138**: the text of a bind rule made by a method of any value has one quotation, at its end. -/
def OneQuotationEach : Prop :=
  ∀ (S : Shifty 8) (P : Printing) (v : BVal) (l : List (Cop × BRule)) (e : Cop × BRule), P.names.Perm Sec.authNames →
    brm S v = some l → e ∈ l → OneQuotation (e.2.text (BExpr.texts P))

theorem join_has {sep : Str} {l : List Str} {s : Str} {c : Byte} (hs : s ∈ l) (hc : c ∈ s) : c ∈ Str.join sep l := by
  induction l with
  | nil => cases hs
  | cons a l ih =>
    cases l with
    | nil => rw [List.mem_singleton.1 hs] at hc; simpa [Str.join] using hc
    | cons b t =>
      rw [Str.join]
      rcases List.mem_cons.1 hs with rfl | hs
      · simp [hc]
      · simp only [List.mem_append]; exact .inr (ih hs)

/-- Without a mark in front, the value is what stands between the first mark and the end. -/
theorem front_unique {a b v w : Str} (ha : 34 ∉ a) (hb : 34 ∉ b) (h : a ++ 34 :: v = b ++ 34 :: w) : v = w := by
  induction a generalizing b with
  | nil =>
    cases b with
    | nil => simpa using h
    | cons y b => simp only [List.nil_append, List.cons_append, List.cons.injEq] at h; exact absurd (h.1 ▸ List.mem_cons_self) hb
  | cons x a ih =>
    cases b with
    | nil => simp only [List.nil_append, List.cons_append, List.cons.injEq] at h; exact absurd (h.1 ▸ List.mem_cons_self) ha
    | cons y b =>
      simp only [List.cons_append, List.cons.injEq] at h
      exact ih (fun hh => ha (List.mem_cons_of_mem _ hh)) (fun hh => hb (List.mem_cons_of_mem _ hh)) h.2

theorem BR_quotation (kw : KwArg) (hk : kw = .other ∨ ∃ k, kw = .bind k) (op : Cop) (ex : BExpr) (val : BExpr → List Str) :
    OneQuotation ((BR kw (.cop op) ex).text val) ↔ ∀ t ∈ val ex, 34 ∉ t := by
  have hcore : ∀ r : RuleCore, (BindRule.setOperator r (.cop op)).kw = r.kw ∧ (BindRule.setOperator r (.cop op)).init = r.init := by
    intro r
    unfold BindRule.setOperator
    dsimp only
    repeat' split
    all_goals exact ⟨rfl, rfl⟩
  have hkw : 34 ∉ (BR kw (.cop op) ex).core.kw := by
    simp only [BR, hcore]
    rcases hk with rfl | ⟨k, rfl⟩
    · simp [BindRule.setKeyword]
    · simp only [BindRule.setKeyword, if_true]; exact clean_bkw k
  have hz : (BR kw (.cop op) ex).isZero = false := by
    simp only [BRule.isZero, BR, hcore]
    rcases hk with rfl | ⟨k, rfl⟩ <;> rfl
  have htext : (BR kw (.cop op) ex).text val = ((BR kw (.cop op) ex).core.kw ++ b!" " ++
      Cop.string (BR kw (.cop op) ex).core.op ++ b!" ") ++ b!"\"" ++ Str.join b!" || " (val ex) ++ b!"\"" := by
    rw [BRule.text, if_neg (by rw [hz]; decide)]
    have : (val ex).map (Rules.quoteIf false) = val ex := by
      have : Rules.quoteIf false = id := by funext s; rfl
      rw [this, List.map_id]
    simp [wrapIf, BRule.bare, BR, badBindRule, Rules.quoteIf, this]
  generalize (BR kw (.cop op) ex).core.kw = K at htext hkw
  have hop := clean_cop (BR kw (.cop op) ex).core.op
  generalize Cop.string (BR kw (.cop op) ex).core.op = O at htext hop
  have hfront : 34 ∉ K ++ b!" " ++ O ++ b!" " := by
    simp only [List.mem_append, not_or]
    exact ⟨⟨⟨hkw, by decide⟩, hop⟩, by decide⟩
  rw [htext]
  constructor
  · rintro (h | ⟨f, v, h, hf, hv⟩) t ht hc
    · simp at h
    · have h' := front_unique (v := Str.join b!" || " (val ex) ++ [34]) (w := v ++ [34]) hfront hf (by simpa using h)
      have := List.append_cancel_right h'
      exact hv (this ▸ join_has ht hc)
  · intro h
    exact .inr ⟨_, _, rfl, hfront, clean_join (by decide) h⟩

theorem bad_quotation (val : BExpr → List Str) : OneQuotation (badBindRule.text val) := .inl rfl

/-- What the tables hold: the zero rule, or a rule with one of the keywords. -/
theorem brm_rules {S : Shifty 8} {v : BVal} {l : List (Cop × BRule)} {e : Cop × BRule} (h : brm S v = some l) (he : e ∈ l) :
    e.2 = badBindRule ∨ ∃ kw op ex, e.2 = BR kw (.cop op) ex ∧ (kw = .other ∨ ∃ k, kw = .bind k) := by
  have two : ∀ f : Cop → BRule, (∀ op, f op = badBindRule ∨ ∃ kw op' ex, f op = BR kw (.cop op') ex ∧ (kw = .other ∨ ∃ k, kw = .bind k)) →
      e ∈ eqNe f ∨ e ∈ allSix f →
      e.2 = badBindRule ∨ ∃ kw op ex, e.2 = BR kw (.cop op) ex ∧ (kw = .other ∨ ∃ k, kw = .bind k) := by
    rintro f hf (h | h) <;> simp only [eqNe, allSix, List.mem_cons, List.not_mem_nil, or_false] at h
    · rcases h with rfl | rfl <;> exact hf _
    · rcases h with rfl | rfl | rfl | rfl | rfl | rfl <;> exact hf _
  cases v <;> simp only [brm, Option.some.injEq] at h <;> subst h
  case dn d =>
    refine two _ (fun op => ?_) (.inl he)
    unfold bindDNCond; split
    · exact .inl rfl
    · refine .inr ⟨_, _, _, rfl, ?_⟩
      cases DN.keyword d
      · exact .inl rfl
      · exact .inr ⟨_, rfl⟩
  case dns d =>
    refine two _ (fun op => ?_) (.inl he)
    cases d
    · exact .inl rfl
    · exact .inr ⟨_, _, _, rfl, .inr ⟨_, rfl⟩⟩
  case uri u =>
    refine two _ (fun op => ?_) (.inl he)
    cases u with
    | none => exact .inl rfl
    | some u =>
      by_cases hu : u.valid = true
      · exact .inr ⟨.bind u.ruleKeyword, op, .uri (some u), by simp [uriCond, hu], .inr ⟨_, rfl⟩⟩
      · exact .inl (by simp [uriCond, hu])
  case inh i =>
    refine two _ (fun op => ?_) (.inl he)
    unfold inhCond; split
    · exact .inr ⟨_, _, _, rfl, .inr ⟨_, rfl⟩⟩
    · exact .inl rfl
  case pair i =>
    refine two _ (fun op => ?_) (.inl he)
    unfold pairCond; split
    · exact .inl rfl
    · exact .inr ⟨_, _, _, rfl, .inr ⟨_, rfl⟩⟩
  case ip i =>
    refine two _ (fun op => ?_) (.inl he)
    unfold ipCond; split
    · exact .inr ⟨_, _, _, rfl, .inr ⟨_, rfl⟩⟩
    · exact .inl rfl
  case fqdn i =>
    refine two _ (fun op => ?_) (.inl he)
    unfold fqdnCond; split
    · exact .inr ⟨_, _, _, rfl, .inr ⟨_, rfl⟩⟩
    · exact .inl rfl
  case dow i =>
    refine two _ (fun op => ?_) (.inl he)
    unfold dowCond; split
    · exact .inr ⟨_, _, _, rfl, .inr ⟨_, rfl⟩⟩
    · exact .inl rfl
  case tod i =>
    refine two _ (fun op => ?_) (.inr he)
    unfold todCond; split
    · exact .inr ⟨_, _, _, rfl, .inr ⟨_, rfl⟩⟩
    · exact .inl rfl
  case am i =>
    refine two _ (fun op => ?_) (.inl he)
    unfold amCond; split
    · exact .inl rfl
    · exact .inr ⟨_, _, _, rfl, .inr ⟨_, rfl⟩⟩
  case ssf i =>
    exact two _ (fun op => .inr ⟨_, _, _, rfl, .inr ⟨_, rfl⟩⟩) (.inr he)

/-- **C138** for rules, exactly: a rule made by a method of any value has one quotation exactly if none of the texts of
its value has a mark.
Missing: that they never have one, which is false for names, attribute values and URIs. -/
theorem C138_rules_partial (S : Shifty 8) (val : BExpr → List Str) (v : BVal) (l : List (Cop × BRule)) (e : Cop × BRule)
    (h : brm S v = some l) (he : e ∈ l) :
    OneQuotation (e.2.text val) ↔ e.2 = badBindRule ∨ ∀ t ∈ val e.2.ex, 34 ∉ t := by
  rcases brm_rules h he with hb | ⟨kw, op, ex, hb, hk⟩
  · rw [hb]
    exact ⟨fun _ => .inl rfl, fun _ => bad_quotation val⟩
  · rw [hb, BR_quotation kw hk]
    refine ⟨fun h => .inr h, ?_⟩
    rintro (h | h)
    · have := congrArg BRule.outer h
      cases this
    · exact h

/-- **C138** for rules about addresses, host names, days, times, methods and strength factors, of whatever these were
made: one quotation, in every setting of the printing. -/
theorem C138_kinds (S : Shifty 8) (P : Printing) (hP : P.names.Perm Sec.authNames) (v : BVal)
    (hv : (∃ d, v = .dow d) ∨ (∃ t, v = .tod t) ∨ (∃ a, v = .am a) ∨ (∃ f, v = .ssf f) ∨
      (∃ (first : List Str) (calls : List (List Str)), v = .ip (calls.foldl Net.IPAddr.set (Net.IP first))) ∨
      (∃ (first : List Str) (calls : List (List Str)), v = .fqdn (calls.foldl Net.FQDN.set (Net.DNS first))))
    (l : List (Cop × BRule)) (e : Cop × BRule) (h : brm S v = some l) (he : e ∈ l) :
    OneQuotation (e.2.text (BExpr.texts P)) := by
  have hw := C138_words P.days P.levels P.low P.names hP
  have two : ∀ (f : Cop → BRule), (∀ op, OneQuotation ((f op).text (BExpr.texts P))) → e ∈ eqNe f ∨ e ∈ allSix f →
      OneQuotation (e.2.text (BExpr.texts P)) := by
    rintro f hf (h | h) <;> simp only [eqNe, allSix, List.mem_cons, List.not_mem_nil, or_false] at h
    · rcases h with rfl | rfl <;> exact hf _
    · rcases h with rfl | rfl | rfl | rfl | rfl | rfl <;> exact hf _
  have br : ∀ k op ex, (∀ t ∈ BExpr.texts P ex, 34 ∉ t) → OneQuotation ((BR (.bind k) (.cop op) ex).text (BExpr.texts P)) :=
    fun k op ex => (BR_quotation _ (.inr ⟨k, rfl⟩) op ex _).2
  rcases hv with ⟨d, rfl⟩ | ⟨d, rfl⟩ | ⟨d, rfl⟩ | ⟨d, rfl⟩ | ⟨d, c, rfl⟩ | ⟨d, c, rfl⟩ <;>
    simp only [brm, Option.some.injEq] at h <;> subst h
  · refine two _ (fun op => ?_) (.inl he)
    unfold dowCond; split
    · exact br _ _ _ (by simpa [BExpr.texts] using hw.1 d)
    · exact bad_quotation _
  · refine two _ (fun op => ?_) (.inr he)
    unfold todCond; split
    · exact br _ _ _ (by simpa [BExpr.texts] using hw.2.1 d)
    · exact bad_quotation _
  · refine two _ (fun op => ?_) (.inl he)
    unfold amCond; split
    · exact bad_quotation _
    · exact br _ _ _ (by simpa [BExpr.texts] using hw.2.2.2.1 d)
  · refine two _ (fun op => ?_) (.inr he)
    exact br _ _ _ (by simpa [BExpr.texts] using hw.2.2.1 d)
  · refine two _ (fun op => ?_) (.inl he)
    unfold ipCond; split
    · exact br _ _ _ (by simpa [BExpr.texts] using C138_checked.1 d c)
    · exact bad_quotation _
  · refine two _ (fun op => ?_) (.inl he)
    unfold fqdnCond; split
    · exact br _ _ _ (by simpa [BExpr.texts] using C138_checked.2.1 d c)
    · exact bad_quotation _

/-- The name that passes for two rules. -/
def crafted : Str := b!"x\" OR userdn = \"ldap:///anyone"

example (P : Printing) (h : P.names.Perm Sec.authNames) :
    OneQuotation ((dowCond (.anyRef 8) Eq' (Time.DoW [.day Time.Mon])).text (BExpr.texts P)) :=
  C138_kinds (.anyRef 8) P h (.dow (Time.DoW [.day Time.Mon])) (.inl ⟨_, rfl⟩) _ _ rfl List.mem_cons_self

theorem chop_mark (x : Str) : 34 ∈ DN.chopDNPfx x ↔ 34 ∈ x := by
  unfold DN.chopDNPfx
  split
  · rename_i h
    obtain ⟨t, rfl⟩ := Str.hasPrefix_iff.1 h
    rw [List.drop_left, List.mem_append]
    exact ⟨.inr, fun h => h.resolve_left (by decide +kernel)⟩
  · rfl

/-- **C138** for names, filters and attribute values, exactly: the text has a quotation mark exactly if one was given.
Missing: that such names, filters and values are refused, which is false. -/
theorem C138_names_partial (x : Str) :
    (∀ kw, (34 ∈ DN.BindDN.string (some (DN.newDN x kw)) ↔ 34 ∈ x) ∧ (34 ∈ DN.TargetDN.string (some (DN.newDN x kw)) ↔ 34 ∈ x)) ∧
    (34 ∈ (Attr.AV x).string ↔ 34 ∈ x) ∧ (34 ∈ (Filter.mkFilter x).string ↔ 34 ∈ x) := by
  have bad : 34 ∉ DN.badBDN ∧ 34 ∉ DN.badTDN := by decide +kernel
  have hls : 34 ∉ Levels.LocalScheme := by decide +kernel
  refine ⟨fun kw => ?_, ?_, ?_⟩
  · cases x with
    | nil => exact ⟨by simpa [DN.BindDN.string, DN.stringWith, DN.newDN] using bad.1, by simpa [DN.TargetDN.string, DN.stringWith, DN.newDN] using bad.2⟩
    | cons a t =>
      simp only [DN.BindDN.string, DN.TargetDN.string, DN.stringWith, DN.newDN, List.length_cons, Nat.succ_ne_zero,
        ne_eq, not_false_eq_true, if_true, List.mem_append]
      exact ⟨⟨fun h => (chop_mark _).1 (h.resolve_left hls), fun h => .inr ((chop_mark _).2 h)⟩,
        ⟨fun h => (chop_mark _).1 (h.resolve_left hls), fun h => .inr ((chop_mark _).2 h)⟩⟩
  · cases x with
    | nil => simp only [Attr.AV, List.length_nil, gt_iff_lt, Nat.lt_irrefl, if_false, Attr.AttributeValue.string, Option.getD_none, List.not_mem_nil, iff_false]; decide +kernel
    | cons a t => simp [Attr.AV, Attr.AttributeValue.string]
  · unfold Filter.mkFilter Filter.SearchFilter.string
    first | rfl | (split <;> simp_all)

example : 34 ∈ crafted ∧ DN.BindDN.string (some (DN.newDN crafted BindUDN)) = b!"ldap:///" ++ crafted := by decide +kernel

/-- **C138** for attribute pairs and inheritances, exactly: with a bind type there is never a mark in the text, with an
attribute value there is one exactly if one was given.
Missing: that such attribute values are refused, which is false. -/
theorem C138_pairs_partial (L : Shifty 16) (kw : BindKeyword) (a x : Str) (hx : x ≠ []) (b : BindType)
    (levels : List Levels.Arg) :
    (∀ t, (Attr.userOrGroupAttr kw [.at_ (Attr.AT a), .bt b]).string = some t → 34 ∉ t) ∧
    (∀ t, (Attr.userOrGroupAttr kw [.at_ (Attr.AT a), .av (Attr.AV x)]).string = some t → (34 ∈ t ↔ 34 ∈ x)) ∧
    34 ∉ Levels.string L (Levels.Inherit (Attr.userOrGroupAttr kw [.at_ (Attr.AT a), .bt b]) levels) ∧
    (kw ≠ 0 → (34 ∈ Levels.string L (Levels.Inherit (Attr.userOrGroupAttr kw [.at_ (Attr.AT a), .av (Attr.AV x)]) levels) ↔
      34 ∈ x)) := by
  have hat := C138_checked.2.2 a
  have hbt : 34 ∉ BindType.string b := by
    unfold BindType.string
    exact clean_lookup (by decide +kernel) (by decide +kernel) b
  have hx' : 0 < x.length := List.length_pos_iff.2 hx
  have hlev := (C138_words (.anyRef 8) L true _ (List.Perm.refl _)).2.2.2.2.1
  have h1 : ∀ t, (Attr.userOrGroupAttr kw [.at_ (Attr.AT a), .bt b]).string = some t → 34 ∉ t := by
    intro t ht
    simp only [Attr.userOrGroupAttr, Attr.Cell.set, List.foldl_cons, List.foldl_nil, Attr.set1, if_true, Attr.ABTV.string,
      Attr.Cell.string, Attr.slotString] at ht
    split at ht
    · cases ht; simp
    · cases ht
      simp only [List.mem_append, List.mem_cons, not_or]
      exact ⟨hat, by decide, hbt⟩
  have h2 : (Attr.userOrGroupAttr kw [.at_ (Attr.AT a), .av (Attr.AV x)]).string = some ((Attr.AT a).string ++ 35 :: x) := by
    simp [Attr.userOrGroupAttr, Attr.Cell.set, Attr.set1, Attr.ABTV.string, Attr.Cell.string, Attr.slotString, Attr.AV, hx', hx]
  have h3 : 34 ∈ (Attr.AT a).string ++ 35 :: x ↔ 34 ∈ x := by
    simp only [List.mem_append, List.mem_cons]
    exact ⟨fun h => (h.resolve_left hat).resolve_left (by decide), fun h => .inr (.inr h)⟩
  refine ⟨h1, fun t ht => ?_, ?_, fun hk => ?_⟩
  · rw [h2] at ht; cases ht; exact h3
  · simp only [Levels.Inherit, Levels.string]
    split
    · decide +kernel
    · simp only [List.mem_append, not_or]
      refine ⟨⟨⟨by decide +kernel, hlev _⟩, by decide +kernel⟩, ?_⟩
      cases e : (Attr.userOrGroupAttr kw [.at_ (Attr.AT a), .bt b]).string with
      | none => simp only [Option.getD_none]; decide +kernel
      | some t => exact h1 t e
  · have hz : (Attr.userOrGroupAttr kw [.at_ (Attr.AT a), .av (Attr.AV x)]).isZero = false := by
      simp [Attr.userOrGroupAttr, Attr.ABTV.isZero, hk]
    simp only [Levels.Inherit, Levels.string, hz, Bool.false_eq_true, if_false, h2, Option.getD_some]
    rw [List.mem_append, h3]
    refine ⟨fun h => h.resolve_left ?_, .inr⟩
    simp only [List.mem_append, not_or]
    exact ⟨⟨by decide +kernel, hlev _⟩, by decide +kernel⟩

example : (Attr.userOrGroupAttr BindUAT [.at_ (Attr.AT b!"manager"), .bt USERDN]).string = some b!"manager#USERDN" := by
  decide +kernel

/-- `OneQuotationEach` fails: a name is taken with its quotation marks, and the text of the one rule is that of two, the
second of which holds for anyone. -/
theorem C138_counterexample : ¬ OneQuotationEach ∧ ∀ (P : Printing) (many : Bool → List Str → Str),
    (bindDNCond Eq' (DN.UDN crafted)).text (BExpr.texts P) =
      BCtx.text (BExpr.texts P) many (.rules .or false
        [.rule (bindDNCond Eq' (DN.UDN b!"x")), .rule (bindDNCond Eq' (DN.UDN b!"anyone"))]) := by
  constructor
  · intro h
    have h1 := h (.anyRef 8) ⟨.anyRef 16, .anyRef 8, Sec.authNames, true⟩ (.dn (DN.UDN crafted)) _
      (Eq', bindDNCond Eq' (DN.UDN crafted)) (.refl _) rfl List.mem_cons_self
    have h2 := (C138_rules_partial (.anyRef 8) _ (.dn (DN.UDN crafted)) _ _ rfl List.mem_cons_self).1 h1
    rcases h2 with h2 | h2
    · have := congrArg BRule.outer h2
      revert this; decide +kernel
    · revert h2; decide +kernel
  · intro P many
    have h : ∀ x, x ≠ [] → (bindDNCond Eq' (DN.UDN x)).text (BExpr.texts P) =
        b!"userdn = \"" ++ DN.BindDN.string (DN.UDN x) ++ b!"\"" := by
      intro x hx
      have h1 : DN.isZero (DN.UDN x) = false := by simp [DN.UDN, DN.newDN, DN.isZero, hx]
      have h2 : DN.keyword (DN.UDN x) = some BindUDN := by simp [DN.UDN, DN.newDN, DN.keyword, hx]
      have h3 : (BR (bindKwArg (some BindUDN)) (.cop Eq') (.dn (DN.UDN x))).core = ⟨true, b!"userdn", Eq'⟩ := by
        show BindRule.setOperator (BindRule.setKeyword ⟨true, [], 0⟩ (.bind BindUDN)) (.cop Eq') = _
        decide +kernel
      simp only [bindDNCond, h1, h2, Bool.false_eq_true, if_false]
      simp only [BRule.text, BRule.isZero, BRule.bare, h3]
      rfl
    simp only [BCtx.text, BCtx.texts, h crafted (by decide), h b!"x" (by decide), h b!"anyone" (by decide)]
    rw [if_neg (by simp), if_neg (by simp)]
    simp only [stackText, wrapIf]
    decide +kernel

/-! ## Target rules -/

theorem clean_tkw (k : TargetKeyword) : 34 ∉ TargetKeyword.string k := by
  unfold TargetKeyword.string
  exact clean_lookup (by decide +kernel) (by decide +kernel) k

/-- As `OneQuotation`, with the parenthesis of a target rule behind it. -/
def OneQuotationT (text : Str) : Prop :=
  text = [] ∨ ∃ front value : Str, text = front ++ b!"\"" ++ value ++ b!"\" )" ∧ 34 ∉ front ∧ 34 ∉ value

theorem TR_quotation (kw : KwArg) (op : Cop) (ex : Rules.TExpr) :
    OneQuotationT ((Rules.TR kw (.cop op) ex).string) ↔ ∀ t ∈ ex.texts, 34 ∉ t := by
  have hcore : ∀ r : RuleCore, (TargetRule.setOperator r (.cop op)).kw = r.kw ∧
      (TargetRule.setOperator r (.cop op)).init = r.init := by
    intro r
    simp only [TargetRule.setOperator, TargetRule.setOperator.go]
    repeat' split
    all_goals exact ⟨rfl, rfl⟩
  have hkw : 34 ∉ (Rules.TR kw (.cop op) ex).core.kw := by
    show 34 ∉ (TargetRule.setOperator _ (.cop op)).kw
    rw [(hcore _).1]
    cases kw <;> simp only [TargetRule.setKeyword, if_true]
    · exact clean_tkw _
    · exact clean_tkw _
    · exact clean_tkw _
    · simp
  have hz : (Rules.TR kw (.cop op) ex).isZero = false := by
    show (!(TargetRule.setOperator _ (.cop op)).init) = false
    rw [(hcore _).2]
    cases kw <;> rfl
  have htext : (Rules.TR kw (.cop op) ex).string = (b!"( " ++ (Rules.TR kw (.cop op) ex).core.kw ++ b!" " ++
      Cop.string (Rules.TR kw (.cop op) ex).core.op ++ b!" ") ++ b!"\"" ++ Str.join b!" || " ex.texts ++ b!"\" )" := by
    rw [Rules.TRule.string, if_neg (by rw [hz]; decide)]
    have h1 : (Rules.TR kw (.cop op) ex).ex = ex := rfl
    have h2 : (Rules.TR kw (.cop op) ex).outer = true := rfl
    have h3 : (Rules.TR kw (.cop op) ex).slice = false := rfl
    have : Rules.quoteIf false = id := by funext s; rfl
    rw [h1, h2, h3, this, List.map_id]
    simp [Rules.quoteIf]
  generalize (Rules.TR kw (.cop op) ex).core.kw = K at htext hkw
  have hop := clean_cop (Rules.TR kw (.cop op) ex).core.op
  generalize Cop.string (Rules.TR kw (.cop op) ex).core.op = O at htext hop
  have hfront : 34 ∉ b!"( " ++ K ++ b!" " ++ O ++ b!" " := by
    simp only [List.mem_append, not_or]
    exact ⟨⟨⟨⟨by decide, hkw⟩, by decide⟩, hop⟩, by decide⟩
  rw [htext]
  constructor
  · rintro (h | ⟨f, v, h, hf, hv⟩) t ht hc
    · simp at h
    · have h' := front_unique (v := Str.join b!" || " ex.texts ++ b!"\" )") (w := v ++ b!"\" )") hfront hf (by simpa using h)
      have := List.append_cancel_right h'
      exact hv (this ▸ join_has ht hc)
  · intro h
    exact .inr ⟨_, _, rfl, hfront, clean_join (by decide) h⟩

theorem trm_rules {v : TVal} {l : List (Cop × Rules.TRule)} {e : Cop × Rules.TRule} (h : trm v = some l) (he : e ∈ l) :
    e.2 = Rules.badTargetRule ∨ ∃ kw op ex, e.2 = Rules.TR kw (.cop op) ex := by
  have two : ∀ f : Cop → Rules.TRule, (∀ op, f op = Rules.badTargetRule ∨ ∃ kw op' ex, f op = Rules.TR kw (.cop op') ex) →
      e ∈ eqNe f → e.2 = Rules.badTargetRule ∨ ∃ kw op ex, e.2 = Rules.TR kw (.cop op) ex := by
    intro f hf h
    simp only [eqNe, List.mem_cons, List.not_mem_nil, or_false] at h
    rcases h with rfl | rfl <;> exact hf _
  cases v with
  | scope s =>
    simp only [trm, Option.some.injEq] at h; subst h
    rw [List.mem_singleton.1 he]
    show Rules.scopeEq s = _ ∨ _
    unfold Rules.scopeEq; split
    · exact .inl rfl
    · exact .inr ⟨_, _, _, rfl⟩
  | filter f =>
    simp only [trm, Option.some.injEq] at h; subst h
    refine two _ (fun op => ?_) he
    unfold Rules.filterCond; split
    · exact .inl rfl
    · exact .inr ⟨_, _, _, rfl⟩
  | at_ a =>
    simp only [trm, Option.some.injEq] at h; subst h
    refine two _ (fun op => ?_) he
    unfold atCond; split
    · exact .inl rfl
    · exact .inr ⟨_, _, _, rfl⟩
  | ats a =>
    cases a with
    | none => cases h
    | some a =>
      simp only [trm, Option.some.injEq] at h; subst h
      exact two _ (fun op => .inr ⟨_, _, _, rfl⟩) he
  | uriAts a => cases h
  | oid o =>
    simp only [trm, Option.some.injEq] at h; subst h
    refine two _ (fun op => ?_) he
    cases o with
    | none => exact .inl rfl
    | some o =>
      by_cases hz : Oid.isZero (some o) = true
      · exact .inl (by simp [oidCond, hz])
      · exact .inr ⟨.target o.kw, op, .oid (some o), by simp [oidCond, hz]⟩
  | oids o =>
    simp only [trm, Option.some.injEq] at h; subst h
    simp only [List.mem_cons, List.not_mem_nil, or_false] at he
    cases o with
    | none => rcases he with rfl | rfl <;> exact .inl rfl
    | some o =>
      rcases he with rfl | rfl
      · by_cases hz : o.kind = b!"<uninitialized>"
        · exact .inl (by simp [oidsEq, hz])
        · exact .inr ⟨.str o.kind, Eq', .oids o, by simp [oidsEq, hz, Rules.oidsCond]⟩
      · exact .inr ⟨_, _, _, rfl⟩
  | dn d =>
    simp only [trm, Option.some.injEq] at h; subst h
    refine two _ (fun op => ?_) he
    unfold targetDNCond; split
    · exact .inl rfl
    · exact .inr ⟨_, _, _, rfl⟩
  | dns d =>
    simp only [trm, Option.some.injEq] at h; subst h
    refine two _ (fun op => ?_) he
    cases d with
    | none => exact .inl rfl
    | some d => exact .inr ⟨_, _, _, rfl⟩
  | afo a =>
    simp only [trm, Option.some.injEq] at h; subst h
    simp only [List.mem_cons, List.not_mem_nil, or_false] at he
    cases a <;> rcases he with rfl | rfl
    · exact .inl rfl
    · exact .inl rfl
    · exact .inr ⟨_, _, _, rfl⟩
    · exact .inl rfl
  | afos a =>
    simp only [trm, Option.some.injEq] at h; subst h
    simp only [List.mem_cons, List.not_mem_nil, or_false] at he
    cases a <;> rcases he with rfl | rfl
    · exact .inl rfl
    · exact .inl rfl
    · exact .inr ⟨_, _, _, rfl⟩
    · exact .inl rfl

/-- **C138** for target rules, exactly: as `C138_rules_partial`.
Missing: that the texts never have a mark, which is false for names and filters. -/
theorem C138_target_rules_partial (v : TVal) (l : List (Cop × Rules.TRule)) (e : Cop × Rules.TRule)
    (h : trm v = some l) (he : e ∈ l) :
    OneQuotationT e.2.string ↔ e.2 = Rules.badTargetRule ∨ ∀ t ∈ e.2.ex.texts, 34 ∉ t := by
  rcases trm_rules h he with hb | ⟨kw, op, ex, hb⟩
  · rw [hb]
    exact ⟨fun _ => .inl rfl, fun _ => .inl rfl⟩
  · rw [hb, TR_quotation]
    refine ⟨fun h => .inr h, ?_⟩
    rintro (h | h)
    · have := congrArg Rules.TRule.outer h
      cases this
    · exact h

/-- **C138** for target rules about scopes, attributes and lists of attributes, of whatever texts these were made: one
quotation. -/
theorem C138_target_kinds (v : TVal)
    (hv : (∃ s, v = .scope s) ∨ (∃ x, v = .at_ (Attr.AT x)) ∨
      (∃ a : Attr.ATs, v = .ats (some a) ∧ ∀ t ∈ a.entries, ∃ x, t = Attr.AT x))
    (l : List (Cop × Rules.TRule)) (e : Cop × Rules.TRule) (h : trm v = some l) (he : e ∈ l) :
    OneQuotationT e.2.string := by
  rcases hv with ⟨s, rfl⟩ | ⟨x, rfl⟩ | ⟨a, rfl, ha⟩ <;> simp only [trm, Option.some.injEq] at h <;> subst h
  · rw [List.mem_singleton.1 he]
    show OneQuotationT (Rules.scopeEq s).string
    unfold Rules.scopeEq; split
    · exact .inl rfl
    · refine (TR_quotation _ _ _).2 ?_
      simpa [Rules.TExpr.texts] using
        (C138_words (.anyRef 8) (.anyRef 16) true _ (List.Perm.refl _)).2.2.2.2.2.2.1 s
  · have key : ∀ op, OneQuotationT (atCond op (Attr.AT x)).string := by
      intro op
      unfold atCond; split
      · exact .inl rfl
      · refine (TR_quotation _ _ _).2 ?_
        simpa [Rules.TExpr.texts] using C138_checked.2.2 x
    simp only [eqNe, List.mem_cons, List.not_mem_nil, or_false] at he
    rcases he with rfl | rfl <;> exact key _
  · have key : ∀ op, OneQuotationT (atsCond op (some a)).string := by
      intro op
      refine (TR_quotation _ _ _).2 ?_
      intro t ht
      obtain ⟨y, hy, rfl⟩ := List.mem_map.1 ht
      obtain ⟨x, rfl⟩ := ha y hy
      exact C138_checked.2.2 x
    simp only [eqNe, List.mem_cons, List.not_mem_nil, or_false] at he
    rcases he with rfl | rfl <;> exact key _

example : OneQuotationT (atCond Eq' (Attr.AT b!"cn")).string ∧ (atCond Eq' (Attr.AT b!"cn")).string = b!"( targetattr = \"cn\" )" :=
  ⟨C138_target_kinds (.at_ (Attr.AT b!"cn")) (.inr (.inl ⟨_, rfl⟩)) _ _ rfl List.mem_cons_self, by decide +kernel⟩

/-- **C138** for target rules. -/
def OneQuotationEachT : Prop :=
  ∀ (v : TVal) (l : List (Cop × Rules.TRule)) (e : Cop × Rules.TRule), trm v = some l → e ∈ l → OneQuotationT e.2.string

/-- `OneQuotationEachT` fails: the text of one rule is that of two, the second of which has another keyword. -/
theorem C138_target_counterexample : ¬ OneQuotationEachT ∧
    (targetDNCond Eq' (DN.TDN b!"cn=x\" )( targetattr = \"*")).string =
      Rules.TRs.string [targetDNCond Eq' (DN.TDN b!"cn=x"), atCond Eq' (Attr.AT b!"*")] := by
  constructor
  · intro h
    have h2 := (C138_target_rules_partial (.dn (DN.TDN crafted)) _ _ rfl List.mem_cons_self).1
      (h (.dn (DN.TDN crafted)) _ _ rfl List.mem_cons_self)
    rcases h2 with h2 | h2
    · have := congrArg Rules.TRule.outer h2
      revert this; decide +kernel
    · revert h2; decide +kernel
  · decide +kernel

end Verif.Quotes
