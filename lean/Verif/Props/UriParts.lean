import Verif.Spec.UriParts
import Verif.Props.Uri
import Verif.Props.Attr
import Verif.Model.Builders

/-!
# C81, C82: the parts and the keyword of a URI
-/

namespace Verif.Uri
open Verif Verif.Misc Verif.Attr Verif.DN Verif.Filter Verif.Spec

/-! ## C81 -/

theorem lastOr_cons {α : Type} (old a : α) (l : List α) : lastOr old (a :: l) = lastOr a l := by
  unfold lastOr
  cases l with
  | nil => rfl
  | cons b l => simp [List.getLast?_eq_some_getLast]

/-- **C81.** After `Set` with any parts, the name, the scope, the pair and the filter are those given
last; what is not given is kept.  The lists of attributes given are added to the one that is there. -/
theorem C81_last (E : EqualFold) (u : Uri) (ps : List Part) :
    (u.set E.eq (ps.map .part)).dn = lastOr u.dn (ps.filterMap nameOf) ∧
    (u.set E.eq (ps.map .part)).scope = lastOr u.scope (ps.filterMap scopeOf) ∧
    (u.set E.eq (ps.map .part)).avbt = lastOr u.avbt (ps.filterMap pairOf) ∧
    (u.set E.eq (ps.map .part)).filter = lastOr u.filter (ps.filterMap filterOf) ∧
    (u.set E.eq (ps.map .part)).attrs = (ps.filterMap listOf).foldl (fun r a => transfer E.eq a r) u.attrs := by
  induction ps generalizing u with
  | nil => exact ⟨rfl, rfl, rfl, rfl, rfl⟩
  | cons p ps ih =>
    rw [List.map_cons, Uri.set]
    obtain ⟨h1, h2, h3, h4, h5⟩ := ih (u.set1 E.eq p)
    rw [h1, h2, h3, h4, h5]
    cases p <;> simp only [List.filterMap_cons, nameOf, scopeOf, pairOf, filterOf, listOf, lastOr_cons, List.foldl_cons,
      Uri.set1, and_self]

theorem perm_short {α : Type} {l l' : List α} (h : l.Perm l') (hl : l.length ≤ 1) : l = l' := by
  match l, hl with
  | [], _ => exact (List.nil_perm.1 h).symm
  | [a], _ => exact List.singleton_perm.1 h

/-- **C81.** The order in which parts are given does not matter, if no kind is given twice. -/
theorem C81_order (E : EqualFold) (u : Uri) (ps qs : List Part) (hp : ps.Perm qs) (h1 : OneOfEach ps) :
    u.set E.eq (ps.map .part) = u.set E.eq (qs.map .part) := by
  obtain ⟨a1, a2, a3, a4, a5⟩ := C81_last E u ps
  obtain ⟨b1, b2, b3, b4, b5⟩ := C81_last E u qs
  obtain ⟨c1, c2, c3, c4, c5⟩ := h1
  have e : ∀ x y : Uri, x.dn = y.dn → x.scope = y.scope → x.avbt = y.avbt → x.attrs = y.attrs →
      x.filter = y.filter → x = y := by
    rintro ⟨⟩ ⟨⟩ h1 h2 h3 h4 h5
    simp only at h1 h2 h3 h4 h5
    rw [h1, h2, h3, h4, h5]
  refine e _ _ ?_ ?_ ?_ ?_ ?_
  · rw [a1, b1, perm_short (hp.filterMap nameOf) c1]
  · rw [a2, b2, perm_short (hp.filterMap scopeOf) c2]
  · rw [a3, b3, perm_short (hp.filterMap pairOf) c3]
  · rw [a5, b5, perm_short (hp.filterMap listOf) c5]
  · rw [a4, b4, perm_short (hp.filterMap filterOf) c4]

/-- **C81.** A text that can be read replaces the whole URI, whatever else is given before or after
it; a text that cannot be read changes nothing. -/
theorem C81_text (E : EqualFold) (u : Uri) (ps : List Part) (s : Str) (xs : List Arg) :
    (∀ v, parseLDAPURI E.eq s [] = .ok v → u.set E.eq (ps.map .part ++ .str s :: xs) = v) ∧
    (parseLDAPURI E.eq s [] = .error () →
      u.set E.eq (ps.map .part ++ .str s :: xs) = u.set E.eq (ps.map .part ++ xs)) := by
  induction ps generalizing u with
  | nil =>
    constructor
    · intro v hv
      rw [List.map_nil, List.nil_append, Uri.set, hv]
    · intro hv
      rw [List.map_nil, List.nil_append, Uri.set, hv]; rfl
  | cons p ps ih => exact ih (u.set1 E.eq p)

/-- **C81**, the full claim for lists of attributes: the list given is the list of the URI. -/
def ListSet : Prop := ∀ (E : EqualFold) (u : Uri) (names : List Str), (∀ n ∈ names, AttrName n) → names.Nodup →
  (u.set E.eq [.part (.attrs ⟨names.map some, []⟩)]).attrs.entries = names.map some

theorem transfer_after (E : EqualFold) (names old : List Str) (h : ∀ n ∈ names, AttrName n) (b : List AttributeType) :
    transfer E.eq ⟨names.map some, b⟩ ⟨old.map some, []⟩ = ⟨(old ++ names).map some, []⟩ := by
  unfold transfer ATs.push
  simp only [List.map_map]
  induction names generalizing old with
  | nil => simp
  | cons n names ih =>
    have hn : AttributeType.isZero (some n) = false := by
      have := attrName_ne_nil (h n (by simp))
      simp [AttributeType.isZero, this]
    have hp : ATs.push1 E.eq ⟨old.map some, []⟩ (.at_ (some n)) = ⟨(old ++ [n]).map some, []⟩ := by
      simp [ATs.push1, castArg, pushPolicy, containsAT, hn]
    show List.foldl _ (ATs.push1 E.eq ⟨old.map some, []⟩ (.at_ (some n))) (names.map _) = _
    rw [hp, ih (old ++ [n]) fun m hm => h m (by simp [hm])]
    simp

/-- **C81** fails for lists of attributes: a second list is added to the first. -/
theorem C81_counterexample : ¬ ListSet := by
  intro h
  have := h EqualFold.ref { newURI with attrs := ⟨[some b!"sn"], []⟩ } [b!"cn"]
    (by intro n hn; rw [List.mem_singleton.1 hn]; exact cn_name) (by simp)
  revert this
  decide +kernel

/-- **C81** for lists of attributes on a URI with the attributes `old`: the names given follow the
old ones.  Missing: the old ones should be replaced; they are not, unless there are none. -/
theorem C81_list_partial (E : EqualFold) (u : Uri) (old names : List Str) (hu : u.attrs = ⟨old.map some, []⟩)
    (h : ∀ n ∈ names, AttrName n) :
    (u.set E.eq [.part (.attrs ⟨names.map some, []⟩)]).attrs = ⟨(old ++ names).map some, []⟩ ∧
    (old = [] → (u.set E.eq [.part (.attrs ⟨names.map some, []⟩)]).attrs.entries = names.map some) := by
  have e : (u.set E.eq [.part (.attrs ⟨names.map some, []⟩)]).attrs = transfer E.eq ⟨names.map some, []⟩ u.attrs := rfl
  rw [e, hu, transfer_after E names old h]
  exact ⟨rfl, by rintro rfl; rfl⟩

/-- **C81.** `Set` on the URI that is not initialized makes one with the parts given; what is not
given is absent.  On any other URI the theorems above say what `Set` does. -/
theorem C81_zero (E : EqualFold) (ps : List Part) :
    ∃ u, LDAPURI.set E.eq none (ps.map .part) = some u ∧
      u.dn = lastOr none (ps.filterMap nameOf) ∧
      u.scope = lastOr 0 (ps.filterMap scopeOf) ∧
      u.avbt = lastOr ABTV.zero (ps.filterMap pairOf) ∧
      u.filter = lastOr none (ps.filterMap filterOf) ∧
      u.attrs = (ps.filterMap listOf).foldl (fun r a => transfer E.eq a r) ⟨[], []⟩ ∧
      ∀ u' : Uri, LDAPURI.set E.eq (some u') (ps.map .part) = some (u'.set E.eq (ps.map .part)) := by
  obtain ⟨h1, h2, h3, h4, h5⟩ := C81_last E newURI ps
  exact ⟨_, rfl, h1, h2, h3, h4, h5, fun _ => rfl⟩

example : (LDAPURI.set EqualFold.ref.eq none [.part (.scope SearchScope.Subtree), .part (.dn (UDN b!"cn=x"))]).isSome = true := rfl

example : OneOfEach [.scope SearchScope.Subtree, .dn (UDN b!"cn=x"), .filter (some b!"(cn=*)")] ∧
    (newURI.set EqualFold.ref.eq ([.scope SearchScope.Subtree, .dn (UDN b!"cn=x"), .filter (some b!"(cn=*)")].map .part)).string
      = b!"ldap:///cn=x??sub?(cn=*)" := by
  refine ⟨⟨by decide, by decide, by decide, by decide, by decide⟩, by decide +kernel⟩

/-! ## C82 -/

/-- **C82**, the full claim: the rule made from a URI has the documented keyword. -/
def RuleKeyword : Prop := ∀ (u : Uri) (k : BindKeyword), u.valid = true → Documented u k →
  (k = BindUDN ∨ k = BindGDN ∨ k = BindUAT) → u.ruleKeyword = k

/-- **C82** fails: a URI with a pair whose keyword is `groupattr` gives a rule with `userdn`, although
`userattr` is documented and `Keyword` says `groupattr`.  With the pair made by `UAT()`, which has
neither attribute nor value, the rule is a `userattr` rule and `Keyword` gives the keyword of the
name; with parts set in the zero value of a pair, `Keyword` gives nothing at all. -/
theorem C82_counterexample : (¬ RuleKeyword ∧
    ∃ u : Uri, u.valid = true ∧ u.avbt.isZero = false ∧ u.keyword = some BindGAT ∧ u.ruleKeyword = BindUDN) ∧
    (∃ u : Uri, u.valid = true ∧ u.avbt = userOrGroupAttr BindUAT [] ∧ u.keyword = some BindGDN ∧
      u.ruleKeyword = BindUAT) ∧
    ∃ u : Uri, u.valid = true ∧ u.avbt = ABTV.zero.set [.at_ (AT b!"cn"), .bt USERDN] ∧ u.keyword = none ∧
      u.ruleKeyword = BindUDN := by
  refine ⟨?_, ⟨{ newURI with dn := GDN b!"cn=x", avbt := userOrGroupAttr BindUAT [] }, by decide, rfl, by decide,
    by decide⟩, ⟨{ newURI with dn := UDN b!"cn=x", avbt := ABTV.zero.set [.at_ (AT b!"cn"), .bt USERDN] }, by decide,
    rfl, by decide, by decide⟩⟩
  have key : ∃ u : Uri, u.valid = true ∧ u.avbt.isZero = false ∧ u.keyword = some BindGAT ∧ u.ruleKeyword = BindUDN :=
    ⟨{ newURI with dn := UDN b!"cn=x", avbt := ⟨BindGAT, some ⟨some (some b!"cn"), .bt USERDN⟩⟩ }, by decide, by decide,
      by decide, by decide⟩
  refine ⟨fun h => ?_, key⟩
  obtain ⟨u, h1, h2, _, h4⟩ := key
  have := h u BindUAT h1 (Or.inl ⟨h2, rfl⟩) (Or.inr (Or.inr rfl))
  rw [h4] at this
  exact absurd this (by decide)

theorem hasPart_iff (a : ABTV) : HasPart a ↔ cellIsZero a.cell = false := by
  unfold HasPart
  cases hc : a.cell with
  | none => simp [cellIsZero]
  | some c =>
    cases ha : c.at_ with
    | none => simp [cellIsZero, ha]
    | some x => simp [cellIsZero, ha]

/-- **C82.** The rule has the documented keyword, and `Keyword` gives the same one if the pair is set
exactly if it has a part.  Missing: pairs with the keyword `groupattr`. -/
theorem C82_keyword_partial (u : Uri) (k : BindKeyword) (hv : u.valid = true) (hd : Documented u k)
    (hk : k = BindUDN ∨ k = BindGDN ∨ k = BindUAT) (hg : u.avbt.isZero = false → u.avbt.kw = BindUAT)
    (hn : u.avbt.isZero = true → k ≠ BindUAT) :
    u.ruleKeyword = k ∧ ((HasPart u.avbt ↔ u.avbt.isZero = false) → u.keyword = some k) := by
  rw [hasPart_iff]
  rcases hd with ⟨hz, rfl⟩ | ⟨hz, t, ht⟩
  · have := hg hz
    refine ⟨by simp [Uri.ruleKeyword, hz, this], fun hp => ?_⟩
    simp [Uri.keyword, hv, hp.2 hz, this]
  · have ht' : t.isNone = false := by
      rw [Uri.valid, ht] at hv
      simpa [DN.isZero] using hv
    have := hn hz
    have hp : (cellIsZero u.avbt.cell = false ↔ u.avbt.isZero = false) → cellIsZero u.avbt.cell = true := by
      intro h
      cases hc : cellIsZero u.avbt.cell with
      | true => rfl
      | false => rw [h.1 hc] at hz; cases hz
    rcases hk with rfl | rfl | rfl
    · refine ⟨by simp [Uri.ruleKeyword, hz, ht, show BindUDN ≠ BindGDN by decide], fun h => ?_⟩
      simp [Uri.keyword, hv, hp h, ht, DN.keyword, ht']
    · refine ⟨by simp [Uri.ruleKeyword, hz, ht], fun h => ?_⟩
      simp [Uri.keyword, hv, hp h, ht, DN.keyword, ht']
    · exact absurd rfl this

/-- **C82.** What `Keyword` gives: nothing if the URI has no name; if its pair has a part, the keyword
of the pair, provided it is `userattr` or `groupattr`; and otherwise the keyword of the name, provided
it is one of the three for names. -/
theorem C82_reported (u : Uri) (k : BindKeyword) :
    u.keyword = some k ↔ ∃ d, u.dn = some d ∧ d.text ≠ none ∧
      ((HasPart u.avbt ∧ u.avbt.kw = k ∧ (k = BindUAT ∨ k = BindGAT)) ∨
       (¬ HasPart u.avbt ∧ d.kw = k ∧ (k = BindGDN ∨ k = BindRDN ∨ k = BindUDN))) := by
  rw [hasPart_iff]
  cases hd : u.dn with
  | none => simp [Uri.keyword, Uri.valid, hd, DN.isZero]
  | some d =>
    cases ht : d.text with
    | none => simp [Uri.keyword, Uri.valid, hd, ht, DN.isZero]
    | some t =>
      have hv : u.valid = true := by simp [Uri.valid, hd, ht, DN.isZero]
      cases hc : cellIsZero u.avbt.cell with
      | false =>
        simp only [Uri.keyword, hv, hc, Bool.not_true, Bool.not_false, Bool.false_eq_true, if_false, if_true]
        by_cases h : u.avbt.kw = BindUAT ∨ u.avbt.kw = BindGAT
        · rw [if_pos h]
          constructor
          · intro e; cases e; exact ⟨d, rfl, by simp [ht], Or.inl ⟨trivial, rfl, h⟩⟩
          · rintro ⟨d', _, _, ⟨_, e, _⟩ | ⟨e, _⟩⟩
            · rw [e]
            · exact absurd trivial e
        · rw [if_neg h]
          constructor
          · intro e; cases e
          · rintro ⟨d', _, _, ⟨_, e, e'⟩ | ⟨e, _⟩⟩
            · rw [e] at h; exact absurd e' h
            · exact absurd trivial e
      | true =>
        simp only [Uri.keyword, hv, hc, hd, DN.keyword, ht, Option.isNone_some, Bool.not_true, Bool.false_eq_true, if_false]
        by_cases h : d.kw = BindGDN ∨ d.kw = BindRDN ∨ d.kw = BindUDN
        · rw [if_pos h]
          constructor
          · intro e; cases e; exact ⟨d, rfl, by simp [ht], Or.inr ⟨by simp, rfl, h⟩⟩
          · rintro ⟨d', e0, _, ⟨e, _⟩ | ⟨_, e, _⟩⟩
            · cases e
            · cases e0; rw [e]
        · rw [if_neg h]
          constructor
          · intro e; cases e
          · rintro ⟨d', e0, _, ⟨e, _⟩ | ⟨_, e, e'⟩⟩
            · cases e
            · cases e0; rw [e] at h; exact absurd e' h

example : Uri.keyword { newURI with dn := RDN b!"cn=x" } = some BindRDN :=
  (C82_reported _ _).2 ⟨_, rfl, by decide, Or.inr ⟨(by rintro ⟨_, h, _⟩; cases h), rfl, by decide⟩⟩

/-- **C82.** Every rule made from a URI has one of the three keywords `userdn`, `groupdn`, `userattr`,
and has the last of them exactly if the URI has a pair with this keyword; in particular the keyword
`roledn` of a name is given up for `userdn`. -/
theorem C82_rule (u : Uri) :
    (u.ruleKeyword = BindUAT ↔ u.avbt.isZero = false ∧ u.avbt.kw = BindUAT) ∧
    (u.ruleKeyword = BindGDN ↔ ¬ (u.avbt.isZero = false ∧ u.avbt.kw = BindUAT) ∧ ∃ t, u.dn = some ⟨BindGDN, t⟩) ∧
    (u.ruleKeyword = BindUDN ↔ ¬ (u.avbt.isZero = false ∧ u.avbt.kw = BindUAT) ∧ ¬ ∃ t, u.dn = some ⟨BindGDN, t⟩) := by
  have ne1 : BindUAT ≠ BindGDN := by decide
  have ne2 : BindUAT ≠ BindUDN := by decide
  have ne3 : BindGDN ≠ BindUDN := by decide
  have hdn : (∃ t, u.dn = some ⟨BindGDN, t⟩) ↔ ∃ d, u.dn = some d ∧ d.kw = BindGDN := by
    constructor
    · rintro ⟨t, h⟩; exact ⟨_, h, rfl⟩
    · rintro ⟨⟨k, t⟩, h, e⟩; simp only at e; exact ⟨t, by rw [h, e]⟩
  by_cases hu : u.avbt.isZero = false ∧ u.avbt.kw = BindUAT
  · have : u.ruleKeyword = BindUAT := by simp [Uri.ruleKeyword, hu.1, hu.2]
    rw [this]
    simp [hu.1, hu.2, ne1, ne2]
  · have hc : (!u.avbt.isZero && u.avbt.kw == BindUAT) = false := by
      rw [Bool.eq_false_iff]
      intro h
      simp only [Bool.and_eq_true, Bool.not_eq_true', beq_iff_eq] at h
      exact hu h
    rw [hdn]
    simp only [Uri.ruleKeyword, hc, Bool.false_eq_true, if_false, hu, not_false_eq_true, true_and, iff_false]
    cases hd : u.dn with
    | none => simp [ne1.symm, ne2.symm, ne3.symm]
    | some d =>
      by_cases hg : d.kw = BindGDN
      · simp [hg, ne1.symm, ne3]
      · simp [hg, ne2.symm, ne3.symm]

/-- **C30**, **C82** for texts: a URI read with the keyword `groupattr` keeps it, if the text has a
pair; otherwise the pair has the keyword `userattr`. Missing: URIs without a pair, and the other ways to read pairs. -/
theorem C30_uri_partial (E : EqualFold) (x : Str) (bkw : List BindKeyword) (u : Uri)
    (h : parseLDAPURI E.eq x bkw = .ok u) (hz : u.avbt.isZero = false) (hv : u.valid = true) :
    (bkw.head? = some BindGAT → u.avbt.kw = BindGAT ∧ u.keyword = some BindGAT) ∧
    (bkw.head? ≠ some BindGAT → u.avbt.kw = BindUAT ∧ u.keyword = some BindUAT) := by
  have key : ∀ (r u : Uri) (a : Str), r.avbt = ABTV.zero → uriAssertATB E.eq r a bkw = .ok u →
      u.avbt.isZero = false → u.avbt.kw = atbKey bkw ∧ cellIsZero u.avbt.cell = false := by
    intro r u a hr hu hz
    rw [uriAssertATB] at hu
    split at hu
    · cases hu; rw [hr] at hz; cases hz
    · split at hu
      · cases hp : parseATBTV a [some (atbKey bkw)] with
        | error e => rw [hp] at hu; cases hu
        | ok A =>
          rw [hp] at hu
          cases hu
          refine ⟨?_, by obtain ⟨p, q, _, _, rfl⟩ := Attr.parse_ok.1 hp; rfl⟩
          have hd := C30_default a [some (atbKey bkw)] A hp
          by_cases hg : atbKey bkw = BindGAT
          · exact (hd.1 (by simp [hg])).1.trans hg.symm
          · have := (hd.2 (by simp [hg])).1
            rw [show atbKey bkw = BindUAT by
              revert hg
              unfold atbKey
              split
              · intro _; rfl
              · split
                · intro hg; exact absurd rfl hg
                · intro _; rfl]
            exact this
      · cases hu
        have : (r.set1 E.eq (.attrs (atbList E.eq a))).avbt = r.avbt := rfl
        rw [this, hr] at hz; cases hz
  have scope_avbt : ∀ (r : Uri) (s : Str), (setScope E.eq r s).avbt = r.avbt := by
    intro r s; unfold setScope; split <;> rfl
  have hk : u.avbt.kw = atbKey bkw ∧ cellIsZero u.avbt.cell = false := by
    rw [parseLDAPURI] at h
    split at h
    · cases h
    · match hs : Str.split1 63 (x.drop Levels.LocalScheme.length) with
      | [] => rw [hs] at h; cases h; cases hz
      | [d] => rw [hs] at h; cases h; cases hz
      | [d, a] => rw [hs] at h; exact key _ u a rfl h hz
      | [d, a, s] =>
        rw [hs] at h
        simp only [assertURIComponents] at h
        cases hu : uriAssertATB E.eq (newURI.set1 E.eq (.dn (UDN d))) a bkw with
        | error e => rw [hu] at h; cases h
        | ok v =>
          rw [hu] at h
          cases h
          rw [scope_avbt] at hz ⊢
          exact key _ v a rfl hu hz
      | d :: a :: s :: f :: _ =>
        rw [hs] at h
        simp only [assertURIComponents] at h
        cases hu : uriAssertATB E.eq (newURI.set1 E.eq (.dn (UDN d))) a bkw with
        | error e => rw [hu] at h; cases h
        | ok v =>
          rw [hu] at h
          cases h
          have hz' : (setScope E.eq v s).avbt.isZero = false := hz
          show (setScope E.eq v s).avbt.kw = _ ∧ cellIsZero (setScope E.eq v s).avbt.cell = _
          rw [scope_avbt] at hz' ⊢
          exact key _ v a rfl hu hz'
  have hkey : u.keyword = if u.avbt.kw = BindUAT ∨ u.avbt.kw = BindGAT then some u.avbt.kw else none := by
    simp [Uri.keyword, hv, hk.2]
  replace hk := hk.1
  constructor
  · intro hb
    have : atbKey bkw = BindGAT := by
      match bkw, hb with
      | k :: _, hb => simp only [List.head?_cons, Option.some.injEq] at hb; simp [atbKey, hb]
    rw [hkey, hk, this]; simp
  · intro hb
    have : atbKey bkw = BindUAT := by
      match bkw, hb with
      | [], _ => rfl
      | k :: _, hb =>
        simp only [List.head?_cons, ne_eq, Option.some.injEq] at hb
        simp [atbKey, hb]
    rw [hkey, hk, this]; simp

example : ∃ u, parseLDAPURI EqualFold.ref.eq b!"ldap:///cn=x?owner#GROUPDN" [BindGAT] = .ok u ∧
    u.avbt.isZero = false ∧ u.valid = true ∧ u.keyword = some BindGAT ∧ u.ruleKeyword = BindUDN :=
  ⟨_, rfl, by decide +kernel, by decide +kernel, by decide +kernel, by decide +kernel⟩

example : ∃ u : Uri, u.valid = true ∧ Documented u BindGDN ∧ u.ruleKeyword = BindGDN :=
  ⟨{ newURI with dn := GDN b!"cn=x" }, by decide, Or.inr ⟨by decide, _, rfl⟩, by decide⟩

end Verif.Uri
