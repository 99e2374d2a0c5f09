import Verif.Lemmas.Uri
import Verif.Spec.Scope

/-!
# C38 and C39: LDAP URIs
-/

namespace Verif.Uri
open Verif Verif.Spec Verif.Attr Verif.DN Verif.Filter
open Verif.SearchScope (BaseObject SingleLevel Subtree Subordinate)

/-- The URI has a name with this text. -/
def Names (u : Uri) (d : Str) : Prop := ∃ k, u.dn = some ⟨k, some d⟩

/-- The URI asks for these attributes; each is an attribute name. -/
def Asks (u : Uri) (names : List Str) : Prop :=
  u.attrs.entries = names.map some ∧ ∀ s ∈ names, AttrName s

theorem valid_of_names {u : Uri} {d : Str} (h : Names u d) :
    u.valid = true ∧ BindDN.string u.dn = scheme ++ d := by
  obtain ⟨k, h⟩ := h
  rw [Uri.valid, h]; exact ⟨rfl, rfl⟩

theorem filter_set {f : Str} (hf : f ≠ []) : SearchFilter.isZero (some f) = false := by
  cases f with
  | nil => exact absurd rfl hf
  | cons a t => rfl

theorem text_with_filter {u : Uri} {d f : Str} {names : List Str} (h : Names u d)
    (ha : Asks u names) (hf : u.filter = some f) (hne : f ≠ []) :
    u.string = scheme ++ d ++ b!"?" ++ Str.join b!"," names ++ b!"?" ++ u.scope.standard ++ b!"?" ++ f := by
  have hat : attrsText u.attrs = Str.join b!"," names := by
    rw [← attrsText_names names u.attrs.bound, ← ha.1]
  rw [Uri.string, (valid_of_names h).1, (valid_of_names h).2, hf, filter_set hne, hat]
  simp [SearchFilter.string]

theorem text_plain {u : Uri} {d : Str} (h : Names u d) (hf : SearchFilter.isZero u.filter = true)
    (hv : u.avbt.isZero = true) : u.string = scheme ++ d ++ b!"??" ++ u.scope.standard ++ b!"?" := by
  rw [Uri.string, (valid_of_names h).1, (valid_of_names h).2, hf, hv]; simp

theorem text_pair {u : Uri} {d : Str} (h : Names u d) (hf : SearchFilter.isZero u.filter = true)
    (hv : u.avbt.isZero = false) :
    u.string = scheme ++ d ++ b!"?" ++ (u.avbt.string).getD Levels.fmtPanic := by
  rw [Uri.string, (valid_of_names h).1, (valid_of_names h).2, hf, hv]; simp

/-! ## C38 -/

/-- **C38** as stated: URIs that have a name and differ in one of name, attributes,
scope (one of the four) and filter print differently. -/
def ClaimShows : Prop :=
  ∀ (u : Uri) (d : Str) (names : List Str), Names u d → Asks u names →
    (∀ k d', d ≠ d' → u.string ≠ { u with dn := some ⟨k, some d'⟩ : Uri }.string) ∧
    (∀ names', names ≠ names' → (∀ s ∈ names', AttrName s) →
      u.string ≠ { u with attrs := ⟨names'.map some, []⟩ : Uri }.string) ∧
    (∀ s, u.scope ∈ [BaseObject, SingleLevel, Subtree, Subordinate] →
      s ∈ [BaseObject, SingleLevel, Subtree, Subordinate] → u.scope ≠ s →
      u.string ≠ { u with scope := s : Uri }.string) ∧
    (∀ f, SearchFilter.string u.filter ≠ f → u.string ≠ { u with filter := some f : Uri }.string)

/-- A URI with a name, one attribute and the scope `base`. -/
def plainURI : Uri := ⟨some ⟨BindUDN, some b!"cn=x"⟩, BaseObject, ABTV.zero, ⟨[some b!"cn"], []⟩, none⟩

theorem plain_names : Names plainURI b!"cn=x" := ⟨BindUDN, rfl⟩

theorem cn_name : AttrName b!"cn" :=
  Or.inl ((isIdentifier_iff _).1 (by decide +kernel))

theorem plain_asks : Asks plainURI [b!"cn"] :=
  ⟨rfl, by intro s hs; simp at hs; subst hs; exact cn_name⟩

/-- **C38** fails: without a filter the attributes are not printed. -/
theorem C38_counterexample : ¬ ClaimShows := by
  intro h
  have := (h plainURI _ _ plain_names plain_asks).2.1 [] (by simp) (by simp)
  exact this (by decide +kernel)

/-- **C38** fails also for scopes: `subordinate` prints as `base`. -/
theorem C38_counterexample_scope :
    ¬ ∀ (u : Uri) (d : Str) (s : SearchScope), Names u d → u.filter = some b!"(cn=*)" →
      u.scope ∈ [BaseObject, SingleLevel, Subtree, Subordinate] →
      s ∈ [BaseObject, SingleLevel, Subtree, Subordinate] → u.scope ≠ s →
      u.string ≠ { u with scope := s : Uri }.string := by
  intro h
  have := h { plainURI with filter := some b!"(cn=*)" } _ Subordinate ⟨BindUDN, rfl⟩ rfl
    (by decide) (by decide) (by decide)
  exact this (by decide +kernel)

/-- **C38**: a URI with a name and a filter shows its name, its attributes, its scope
word and its filter, in this order. -/
theorem C38_text {u : Uri} {d f : Str} {names : List Str} (h : Names u d) (ha : Asks u names)
    (hf : u.filter = some f) (hne : f ≠ []) :
    u.string = scheme ++ d ++ b!"?" ++ Str.join b!"," names ++ b!"?" ++ u.scope.standard ++ b!"?" ++ f :=
  text_with_filter h ha hf hne

example : ({ plainURI with filter := some b!"(cn=*)" } : Uri).string
    = b!"ldap:///cn=x?cn?base?(cn=*)" := by decide +kernel

/-- **C38** for the name, in full: URIs that differ in the text of the name print
differently. -/
theorem C38_dn {u : Uri} {d d' : Str} (k : BindKeyword) (h : Names u d) (hd : d ≠ d') :
    u.string ≠ { u with dn := some ⟨k, some d'⟩ : Uri }.string := by
  intro he
  have h' : Names { u with dn := some ⟨k, some d'⟩ : Uri } d' := ⟨k, rfl⟩
  apply hd
  simp only [Uri.string, (valid_of_names h).1, (valid_of_names h).2, (valid_of_names h').1,
    Bool.not_true, Bool.false_eq_true, if_false] at he
  have e : BindDN.string (some ⟨k, some d'⟩) = scheme ++ d' := rfl
  simp only [e] at he
  split at he
  · exact List.append_cancel_left (List.append_cancel_right he)
  · split at he
    · exact List.append_cancel_left (List.append_cancel_right he)
    · simp only [List.append_assoc] at he
      exact List.append_cancel_right (List.append_cancel_left he)

example : Names plainURI b!"cn=x" ∧ b!"cn=x" ≠ b!"cn=y" := ⟨plain_names, by decide⟩

/-- **C38** for the filter, when both are set. -/
theorem C38_filter {u : Uri} {d f f' : Str} {names : List Str} (h : Names u d) (ha : Asks u names)
    (hf : u.filter = some f) (hne : f ≠ []) (hne' : f' ≠ []) (hff : f ≠ f') :
    u.string ≠ { u with filter := some f' : Uri }.string := by
  intro he
  rw [text_with_filter h ha hf hne,
    text_with_filter (u := { u with filter := some f' }) (d := d) (names := names) h ha rfl hne'] at he
  exact hff (List.append_cancel_left he)

/-- **C38** for the filter, set or not set: setting one changes the text of a URI
without attribute pair. -/
theorem C38_filter_set {u : Uri} {d f : Str} {names : List Str} (h : Names u d) (ha : Asks u names)
    (hf : SearchFilter.isZero u.filter = true) (hv : u.avbt.isZero = true) (hne : f ≠ []) :
    u.string ≠ { u with filter := some f : Uri }.string := by
  intro he
  rw [text_plain h hf hv,
    text_with_filter (u := { u with filter := some f }) (d := d) (names := names) h ha rfl hne] at he
  have := congrArg List.length he
  have hl : f.length > 0 := List.length_pos_iff.2 hne
  simp at this
  omega

/-- **C38** for the attributes, when a filter is set (missing: without a filter the
attributes are not printed, see `C38_counterexample`). -/
theorem C38_attrs_partial {u : Uri} {d f : Str} {names names' : List Str} (h : Names u d)
    (ha : Asks u names) (hf : u.filter = some f) (hne : f ≠ []) (hn' : ∀ s ∈ names', AttrName s)
    (hnn : names ≠ names') :
    u.string ≠ { u with attrs := ⟨names'.map some, []⟩ : Uri }.string := by
  intro he
  have ha' : Asks { u with attrs := ⟨names'.map some, []⟩ } names' := ⟨rfl, hn'⟩
  rw [text_with_filter h ha hf hne, text_with_filter
    (u := { u with attrs := ⟨names'.map some, []⟩ }) (d := d) h ha' hf hne] at he
  apply hnn
  simp only [List.append_assoc] at he
  have he := List.append_cancel_left (List.append_cancel_left (List.append_cancel_left he))
  exact join_inj ha.2 hn' (List.append_cancel_right he)

example : AttrName b!"cn" ∧ AttrName b!"*" := ⟨cn_name, Or.inr rfl⟩

/-- The words of three scopes differ. -/
theorem standard_inj : ∀ s ∈ [BaseObject, SingleLevel, Subtree],
    ∀ t ∈ [BaseObject, SingleLevel, Subtree], s.standard = t.standard → s = t := by
  decide +kernel

/-- **C38** for the scopes `base`, `one` and `sub`, unless an attribute pair takes the
place of the scope (missing: `subordinate`, see `C38_counterexample_scope`). -/
theorem C38_scope_partial {u : Uri} {d : Str} {names : List Str} {s : SearchScope} (h : Names u d)
    (ha : Asks u names) (hu : u.scope ∈ [BaseObject, SingleLevel, Subtree])
    (hs : s ∈ [BaseObject, SingleLevel, Subtree]) (hne : u.scope ≠ s)
    (hp : SearchFilter.isZero u.filter = false ∨ u.avbt.isZero = true) :
    u.string ≠ { u with scope := s : Uri }.string := by
  intro he
  apply hne
  apply standard_inj _ hu _ hs
  by_cases hf : SearchFilter.isZero u.filter = true
  · have hv : u.avbt.isZero = true := by
      rcases hp with hp | hp
      · rw [hf] at hp; cases hp
      · exact hp
    rw [text_plain h hf hv, text_plain (u := { u with scope := s }) h hf hv] at he
    exact List.append_cancel_left (List.append_cancel_right he)
  · obtain ⟨f, hf', hne'⟩ : ∃ f, u.filter = some f ∧ f ≠ [] := by
      cases hff : u.filter with
      | none => rw [hff] at hf; exact absurd rfl hf
      | some f => exact ⟨f, rfl, by rintro rfl; rw [hff] at hf; exact hf rfl⟩
    rw [text_with_filter h ha hf' hne',
      text_with_filter (u := { u with scope := s }) (d := d) (names := names) h ha hf' hne'] at he
    exact List.append_cancel_left (List.append_cancel_right (List.append_cancel_right he))

/-! ## C39 -/

/-- The URIs read back as the same URI: same name, attributes, scope and filter, and
same text. -/
def ReadsBack (F : EqualFold) (u : Uri) : Prop :=
  ∃ u', parseLDAPURI F.eq u.string [] = .ok u' ∧ u'.dn = u.dn ∧
    u'.attrs.entries = u.attrs.entries ∧ u'.scope = u.scope ∧ u'.filter = u.filter ∧
    u'.string = u.string

/-- **C39** as stated: a URI with a name, attribute names, a scope and a filter, the
components in front of the filter being free of question marks, reads back. -/
def ClaimReadsBack : Prop :=
  ∀ (F : EqualFold) (u : Uri) (k : BindKeyword) (d f : Str) (names : List Str),
    u.dn = some ⟨k, some d⟩ → k ∈ [BindUDN, BindGDN] → d ≠ [] → (63 : Byte) ∉ d → Asks u names →
    u.scope ∈ [BaseObject, SingleLevel, Subtree, Subordinate] →
    u.filter = some f → f ≠ [] → ReadsBack F u

theorem split_text {d a s f : Str} (hd : (63 : Byte) ∉ d) (ha : (63 : Byte) ∉ a)
    (hs : (63 : Byte) ∉ s) :
    Str.split1 63 (d ++ b!"?" ++ a ++ b!"?" ++ s ++ b!"?" ++ f) = d :: a :: s :: Str.split1 63 f := by
  have e : d ++ b!"?" ++ a ++ b!"?" ++ s ++ b!"?" ++ f = d ++ 63 :: (a ++ 63 :: (s ++ 63 :: f)) := by
    simp
  rw [e, Str.split1_append hd, Str.split1_append ha, Str.split1_append hs]

theorem standard_no_mark (s : SearchScope) : (63 : Byte) ∉ s.standard := by
  unfold SearchScope.standard
  split
  · decide
  · split <;> decide

theorem standard_ne_nil (s : SearchScope) : s.standard.length > 0 := by
  unfold SearchScope.standard
  split
  · decide
  · split <;> decide

/-- What is read from the text of a URI with a filter, for every filter. -/
theorem parse_text (F : EqualFold) {u : Uri} {d f : Str} {names : List Str} (h : Names u d)
    (ha : Asks u names) (hf : u.filter = some f) (hne : f ≠ []) (hd : (63 : Byte) ∉ d) :
    ∃ g gs, Str.split1 63 f = g :: gs ∧
    parseLDAPURI F.eq u.string [] = .ok ⟨UDN d, SearchScope.strToScope u.scope.standard,
      ABTV.zero, ⟨names.map some, []⟩, some g⟩ := by
  obtain ⟨g, gs, hg⟩ : ∃ g gs, Str.split1 63 f = g :: gs := by
    cases hs : Str.split1 63 f with
    | nil => exact absurd hs (Str.split1_ne_nil _ _)
    | cons g gs => exact ⟨g, gs, rfl⟩
  refine ⟨g, gs, hg, ?_⟩
  have ht := text_with_filter h ha hf hne
  have hp : Str.hasPrefix u.string Levels.LocalScheme = true := by
    rw [Str.hasPrefix_iff, ht]
    exact ⟨d ++ b!"?" ++ Str.join b!"," names ++ b!"?" ++ u.scope.standard ++ b!"?" ++ f, by
      simp only [List.append_assoc]; rfl⟩
  have hdrop : u.string.drop Levels.LocalScheme.length
      = d ++ b!"?" ++ Str.join b!"," names ++ b!"?" ++ u.scope.standard ++ b!"?" ++ f := by
    rw [ht]; simp only [List.append_assoc]; rfl
  have h63 : (63 : Byte) ∉ Str.join b!"," names :=
    names_avoid ha.2 (by decide) (by decide) (by decide) (by decide) (by decide) (by decide)
  rw [parseLDAPURI, hp, hdrop, split_text hd h63 (standard_no_mark _), hg]
  simp only [Bool.not_true, Bool.false_eq_true, if_false, assertURIComponents, newURI, Uri.set1]
  rw [uriAssertATB_names F.eq _ ha.2 rfl]
  simp only [Except.map, setScope, if_pos (standard_ne_nil _), Uri.set1, mkFilter]

/-- **C39**, for `userdn` names that do not begin with a second scheme, the scopes
`base`, `one` and `sub`, and filters without question mark (missing: `groupdn` names,
names with two schemes, the scope `subordinate` and filters with a question mark, see
the counterexamples). -/
theorem C39_round_trip_partial (F : EqualFold) {u : Uri} {d f : Str} {names : List Str}
    (hdn : u.dn = some ⟨BindUDN, some d⟩) (hd0 : d ≠ []) (hds : ∀ x, d ≠ scheme ++ x)
    (hd : (63 : Byte) ∉ d) (ha : Asks u names) (hs : u.scope ∈ [BaseObject, SingleLevel, Subtree])
    (hf : u.filter = some f) (hf0 : f ≠ []) (hfq : (63 : Byte) ∉ f) : ReadsBack F u := by
  obtain ⟨g, gs, hg, hp⟩ := parse_text F ⟨_, hdn⟩ ha hf hf0 hd
  rw [Str.split1_of_not_mem hfq] at hg
  injection hg with hg _
  have hsc : SearchScope.strToScope u.scope.standard = u.scope := by
    revert hs; generalize u.scope = s
    intro hs
    have key : ∀ s ∈ [BaseObject, SingleLevel, Subtree], SearchScope.strToScope s.standard = s := by
      decide +kernel
    exact key s hs
  have hu : UDN d = u.dn := by rw [hdn, UDN, newDN_ne hd0, chop_other hds]
  refine ⟨_, hp, hu, ha.1.symm, hsc, by rw [hf, hg], ?_⟩
  have hasks : Asks ⟨UDN d, SearchScope.strToScope u.scope.standard, ABTV.zero,
      ⟨names.map some, []⟩, some g⟩ names := ⟨rfl, ha.2⟩
  rw [text_with_filter (f := f) (u := ⟨UDN d, SearchScope.strToScope u.scope.standard, ABTV.zero,
      ⟨names.map some, []⟩, some g⟩) ⟨BindUDN, by rw [hu, hdn]⟩ hasks (by rw [hg]) hf0,
    text_with_filter ⟨_, hdn⟩ ha hf hf0]
  simp only [hsc]

example : ReadsBack EqualFold.ref { plainURI with filter := some b!"(&(cn=*)(sn=x))" } :=
  C39_round_trip_partial (d := b!"cn=x") (names := [b!"cn"]) _ rfl (by decide)
    (by intro x h; simp [scheme] at h) (by decide) plain_asks (by decide) rfl (by decide) (by decide)

/-- **C39**, the text alone, for names of every keyword (missing: the keyword of the
name, which is not in the text; two schemes; `subordinate`; question marks). -/
theorem C39_text_partial (F : EqualFold) {u : Uri} {k : BindKeyword} {d f : Str}
    {names : List Str} (hdn : u.dn = some ⟨k, some d⟩) (hd0 : d ≠ []) (hds : ∀ x, d ≠ scheme ++ x)
    (hd : (63 : Byte) ∉ d) (ha : Asks u names) (hf : u.filter = some f) (hf0 : f ≠ [])
    (hfq : (63 : Byte) ∉ f) : ∃ u', parseLDAPURI F.eq u.string [] = .ok u' ∧ u'.string = u.string := by
  obtain ⟨g, gs, hg, hp⟩ := parse_text F ⟨_, hdn⟩ ha hf hf0 hd
  rw [Str.split1_of_not_mem hfq] at hg
  injection hg with hg _
  refine ⟨_, hp, ?_⟩
  have hsc : ∀ s : SearchScope, (SearchScope.strToScope s.standard).standard = s.standard := by
    intro s; unfold SearchScope.standard
    split
    · decide
    · split <;> decide
  have hasks : Asks ⟨UDN d, SearchScope.strToScope u.scope.standard, ABTV.zero,
      ⟨names.map some, []⟩, some g⟩ names := ⟨rfl, ha.2⟩
  have hn : Names ⟨UDN d, SearchScope.strToScope u.scope.standard, ABTV.zero,
      ⟨names.map some, []⟩, some g⟩ d := ⟨BindUDN, by
        show UDN d = _
        rw [UDN, newDN_ne hd0, chop_other hds]⟩
  rw [text_with_filter (f := f) hn hasks (by rw [hg]) hf0, text_with_filter ⟨_, hdn⟩ ha hf hf0]
  simp only [hsc]

/-- A URI whose filter holds a question mark. -/
def markedURI : Uri := { plainURI with filter := some b!"(cn=a?b)" }

/-- **C39** fails: a filter that holds a question mark is cut there. -/
theorem C39_counterexample : ¬ ClaimReadsBack := by
  intro h
  obtain ⟨u', hp, _, _, _, hf, _⟩ := h EqualFold.ref markedURI BindUDN _ _ _ rfl (by decide) (by decide)
    (by decide) plain_asks (by decide) rfl (by decide)
  obtain ⟨g, gs, hg, hp'⟩ := parse_text EqualFold.ref (u := markedURI) ⟨BindUDN, rfl⟩ plain_asks rfl
    (by decide) (by decide)
  rw [hp'] at hp
  injection hp with hp
  rw [← hp] at hf
  have : Str.split1 63 b!"(cn=a?b)" = [b!"(cn=a", b!"b)"] := by decide
  rw [this] at hg
  injection hg with hg _
  rw [← hg] at hf
  revert hf; decide

/-- **C39** fails also for the scope `subordinate`, whose text is that of `base`. -/
theorem C39_counterexample_scope (F : EqualFold) :
    ¬ ReadsBack F { plainURI with scope := Subordinate, filter := some b!"(cn=*)" } := by
  rintro ⟨u', hp, _, _, hs, _⟩
  obtain ⟨g, gs, hg, hp'⟩ := parse_text F
    (u := { plainURI with scope := Subordinate, filter := some b!"(cn=*)" })
    ⟨BindUDN, rfl⟩ plain_asks rfl (by decide) (by decide)
  rw [hp'] at hp
  injection hp with hp
  rw [← hp] at hs
  have hs : SearchScope.strToScope Subordinate.standard = Subordinate := hs
  revert hs; decide +kernel

/-- **C39** fails also for `groupdn` names, which are read as `userdn` names. -/
theorem C39_counterexample_group (F : EqualFold) :
    ¬ ReadsBack F { plainURI with dn := GDN b!"cn=x", filter := some b!"(cn=*)" } := by
  rintro ⟨u', hp, hd, _⟩
  obtain ⟨g, gs, hg, hp'⟩ := parse_text F
    (u := { plainURI with dn := GDN b!"cn=x", filter := some b!"(cn=*)" }) (d := b!"cn=x")
    ⟨BindGDN, rfl⟩ plain_asks rfl (by decide) (by decide)
  rw [hp'] at hp
  injection hp with hp
  rw [← hp] at hd
  have hd : UDN b!"cn=x" = GDN b!"cn=x" := hd
  revert hd; decide +kernel

/-- **C39**, attribute pairs: the text of a URI whose parameter is a pair with a text
that holds no question mark is read as a URI with the pair that this text denotes. -/
theorem C39_pair (F : EqualFold) {u : Uri} {d p q : Str} (hdn : u.dn = some ⟨BindUDN, some d⟩)
    (hd0 : d ≠ []) (hds : ∀ x, d ≠ scheme ++ x) (hd : (63 : Byte) ∉ d)
    (hf : SearchFilter.isZero u.filter = true) (hv : u.avbt.isZero = false)
    (ht : u.avbt.string = some (p ++ 35 :: q)) (hpn : AttrName p) (hq : (63 : Byte) ∉ q)
    (bkw : List BindKeyword) :
    ∃ u', parseLDAPURI F.eq u.string bkw = .ok u' ∧ u'.dn = u.dn ∧
      parseATBTV (p ++ 35 :: q) [some (if bkw.head? = some BindGAT then BindGAT else BindUAT)] = .ok u'.avbt ∧
      u'.attrs.entries = [] ∧ u'.filter = none := by
  have hkey : (if bkw.head? = some BindGAT then BindGAT else BindUAT) = atbKey bkw := by
    cases bkw <;> simp [atbKey]
  rw [hkey]
  have htx := text_pair (u := u) ⟨_, hdn⟩ hf hv
  rw [ht] at htx
  simp only [Option.getD_some] at htx
  have hp : Str.hasPrefix u.string Levels.LocalScheme = true := by
    rw [Str.hasPrefix_iff, htx]
    exact ⟨d ++ b!"?" ++ (p ++ 35 :: q), by simp only [List.append_assoc]; rfl⟩
  have hdrop : u.string.drop Levels.LocalScheme.length = d ++ 63 :: (p ++ 35 :: q) := by
    rw [htx]; simp only [List.append_assoc]; rfl
  have h63p : (63 : Byte) ∉ p :=
    attrName_avoids hpn (by decide) (by decide) (by decide) (by decide) (by decide)
  have h63 : (63 : Byte) ∉ p ++ 35 :: q := by
    simp only [List.mem_append, List.mem_cons, not_or]
    exact ⟨h63p, by decide, hq⟩
  obtain ⟨A, hA⟩ : ∃ A, parseATBTV (p ++ 35 :: q) [some (atbKey bkw)] = .ok A :=
    ⟨_, parse_ok.2 ⟨p, q, rfl, hpn, rfl⟩⟩
  have h35 : Str.containsStr (p ++ 35 :: q) b!"#" = true := by rw [containsStr1]; simp
  refine ⟨⟨UDN d, SearchScope.noScope, A, UAs, none⟩, ?_, ?_, hA, rfl, rfl⟩
  · rw [parseLDAPURI, hp, hdrop, Str.split1_append hd, Str.split1_of_not_mem h63]
    simp [assertURIComponents, uriAssertATB, Uri.set1, newURI, h35, hA]
  · rw [hdn]
    show UDN d = _
    rw [UDN, newDN_ne hd0, chop_other hds]

example : (⟨some ⟨BindUDN, some b!"cn=x"⟩, 0,
      ⟨BindUAT, some ⟨some (some b!"owner"), .bt GROUPDN⟩⟩, UAs, none⟩ : Uri).string
    = b!"ldap:///cn=x?owner#GROUPDN" := by decide +kernel

end Verif.Uri
