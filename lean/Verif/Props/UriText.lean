import Verif.Spec.UriText
import Verif.Props.UriParts
import Verif.Props.Levels
import Verif.Lemmas.Uri

/-!
# C89: the text of an LDAP URI is read part by part; the texts of C09 and C29
-/

namespace Verif.Uri
open Verif Verif.Misc Verif.Attr Verif.DN Verif.Filter Verif.Spec

theorem pair_iff {bkw : List (Option BindKeyword)} {key : BindKeyword} (hk : assertATBTVBindKeyword bkw = key)
    (x : Str) (A : ABTV) : parseATBTV x bkw = .ok A ↔ PairText key x A := by
  rw [parse_ok, hk]
  constructor
  · rintro ⟨p, q, rfl, hp, rfl⟩
    have e : p ++ 35 :: q = p ++ b!"#" ++ q := by simp
    by_cases hb : ∃ b, BindTypeText b q
    · obtain ⟨b, hb⟩ := hb
      rw [e, slotOf, if_pos (by rw [matchBT_text hb]; exact btConst_ne b), matchBT_text hb]
      exact .type hp hb
    · have hb : ∀ b, ¬ BindTypeText b q := fun b h => hb ⟨b, h⟩
      rw [e, slotOf, if_neg (by rw [matchBT_none hb]; simp)]
      by_cases hq : q = []
      · subst hq
        rw [List.append_nil]
        exact .empty hp
      · rw [AV, if_pos (List.length_pos_iff.2 hq)]
        exact .value hp hb hq
  · intro h
    cases h with
    | @type p q b hp hq =>
      exact ⟨p, q, by simp, hp, by
        rw [slotOf, if_pos (by rw [matchBT_text hq]; exact btConst_ne b), matchBT_text hq]⟩
    | @value p q hp hq h =>
      exact ⟨p, q, by simp, hp, by
        rw [slotOf, if_neg (by rw [matchBT_none hq]; simp), AV, if_pos (List.length_pos_iff.2 h)]⟩
    | @empty p hp =>
      refine ⟨p, [], by simp, hp, ?_⟩
      have : ∀ b, ¬ BindTypeText b [] := by intro b; cases b <;> decide
      rw [slotOf, if_neg (by rw [matchBT_none this]; simp), AV, if_neg (by simp)]

/-- **C29**, exactly which texts are read as a pair, and as which pair. -/
theorem C29_exact (x : Str) (bkw : List (Option BindKeyword)) (A : ABTV) :
    parseATBTV x bkw = .ok A ↔
      PairText (if bkw.head? = some (some BindGAT) then BindGAT else BindUAT) x A := by
  refine pair_iff ?_ x A
  match bkw with
  | [] => rfl
  | none :: _ => rfl
  | some k :: _ =>
    by_cases h : k = BindGAT
    · simp [assertATBTVBindKeyword, h]
    · simp [assertATBTVBindKeyword, h]

/-- **C09**, exactly which texts are read as an inheritance, and as which one. -/
theorem C09_exact (x : Str) (i : Levels.Inheritance) : Levels.parseInheritance x = .ok i ↔ InheritText x i := by
  rw [Levels.parse_ok_iff]
  have hp := fun y A => pair_iff (bkw := []) (key := BindUAT) rfl y A
  constructor
  · rintro ⟨pre, lv, rest, A, rfl, h1, h2, h3, h4, rfl⟩
    exact ⟨pre, lv, rest, _, A, rfl, h1, h2, h3, (hp _ _).1 h4, rfl, Levels.word_bit lv, Levels.word_range lv⟩
  · rintro ⟨pre, lv, rest, w, A, rfl, h1, h2, h3, h4, rfl, h5, h6⟩
    refine ⟨pre, lv, rest, A, rfl, h1, h2, h3, (hp _ _).2 h4, ?_⟩
    have : w = Levels.word lv := by
      apply BitVec.eq_of_getLsbD_eq
      intro j hj
      by_cases hr : 1 ≤ j ∧ j ≤ 10
      · have e : j - 1 + 1 = j := by omega
        have a := h5 ⟨j - 1, by omega⟩
        rw [← Levels.word_bit] at a
        simp only [e] at a
        exact Bool.eq_iff_iff.2 a
      · rw [h6 j hr, Levels.word_range lv j hr]
    rw [this]

example : PairText BindGAT b!"manager#UserDN" ⟨BindGAT, some ⟨some (some b!"manager"), .bt USERDN⟩⟩ :=
  .type (p := b!"manager") (q := b!"UserDN") (b := .USERDN) ((AT_some _).1 (by decide)) (by decide)

example : InheritText b!"Parent[0, 3].cn#x" (some ⟨18#16, ⟨BindUAT, some ⟨some (some b!"cn"), .av (some b!"x")⟩⟩⟩) := by
  refine ⟨b!"Parent[", b!"0, 3", b!"cn#x", _, _, rfl, by decide, by decide, ⟨0, by decide⟩,
    .value (p := b!"cn") (q := b!"x") ((AT_some _).1 (by decide)) (by intro b; cases b <;> decide) (by decide), rfl, ?_, ?_⟩
  · decide
  · intro j hj
    by_cases h : j < 16
    · revert hj
      have : ∀ j : Fin 16, ¬ (1 ≤ j.1 ∧ j.1 ≤ 10) → (18#16).getLsbD j.1 = false := by decide
      exact this ⟨j, h⟩
    · exact BitVec.getLsbD_of_ge _ _ (by omega)

theorem pairKey_eq (bkw : List BindKeyword) : atbKey bkw = pairKey bkw := by
  cases bkw with
  | nil => rfl
  | cons k t => simp [atbKey, pairKey]

theorem key_self (bkw : List BindKeyword) : assertATBTVBindKeyword [some (atbKey bkw)] = pairKey bkw := by
  rw [pairKey_eq]
  unfold pairKey
  split
  · rfl
  · rfl

theorem picks_names (l : List Str) (names : List Str) :
    Picks (fun x n => x = n ∧ AttrName n) l names ↔ l.filterMap AT = names := by
  induction l generalizing names with
  | nil =>
    constructor
    · intro h; cases h; rfl
    · rintro rfl; exact .nil
  | cons a l ih =>
    by_cases ha : AttrName a
    · rw [List.filterMap_cons, (AT_some a).2 ha]
      constructor
      · intro h
        cases h with
        | skip h _ => exact absurd ⟨rfl, ha⟩ (h a)
        | take h h' => rw [← h.1, (ih _).1 h']
      · rintro rfl
        exact .take ⟨rfl, ha⟩ ((ih _).2 rfl)
    · rw [List.filterMap_cons, (AT_none a).2 ha]
      constructor
      · intro h
        cases h with
        | skip _ h' => exact (ih _).1 h'
        | take h h' => exact absurd (h.1 ▸ h.2) ha
      · rintro rfl
        refine .skip (fun e he => ha (he.1 ▸ he.2)) ((ih _).2 rfl)

theorem names_attr (l : List Str) : ∀ n ∈ l.filterMap AT, AttrName n := by
  intro n hn
  obtain ⟨x, _, hx⟩ := List.mem_filterMap.1 hn
  by_cases h : AttrName x
  · rw [(AT_some x).2 h] at hx; cases hx; exact h
  · rw [(AT_none x).2 h] at hx; cases hx

theorem push_filter (eq : Str → Str → Bool) (l : List Str) (es : List AttributeType) :
    ATs.push eq ⟨es, []⟩ (l.map fun a => PushArg.at_ (AT a)) = ⟨es ++ (l.filterMap AT).map some, []⟩ := by
  induction l generalizing es with
  | nil => simp [ATs.push]
  | cons a l ih =>
    rw [List.map_cons, List.filterMap_cons]
    by_cases ha : AttrName a
    · have h1 := push_names eq [a] (by simpa using ha) es
      simp only [ATs.push, List.map_cons, List.map_nil, List.foldl_cons, List.foldl_nil] at h1 ih ⊢
      rw [(AT_some a).2 ha, h1, ih]
      simp
    · simp only [ATs.push, List.foldl_cons] at ih ⊢
      rw [(AT_none a).2 ha]
      have h1 : ATs.push1 eq ⟨es, []⟩ (.at_ none) = ⟨es, []⟩ := by
        simp [ATs.push1, castArg, pushPolicy, AttributeType.isZero]
      rw [h1, ih]

theorem atb_iff (eq : Str → Str → Bool) (r : Uri) (hp : r.avbt = ⟨0, none⟩) (ha : r.attrs = ⟨[], []⟩) (a : Str)
    (bkw : List BindKeyword) (u : Uri) :
    uriAssertATB eq r a bkw = .ok u ↔
      AttrPart (pairKey bkw) (some a) u.avbt u.attrs ∧ u = { r with avbt := u.avbt, attrs := u.attrs } := by
  unfold uriAssertATB
  by_cases h0 : a = []
  · subst h0
    rw [if_pos (by rfl), Except.ok.injEq]
    constructor
    · rintro rfl
      exact ⟨Or.inl ⟨Or.inr rfl, hp, ha⟩, by rfl⟩
    · rintro ⟨(⟨_, h1, h2⟩ | ⟨s, e, h, _⟩ | ⟨s, n, e, h, _⟩), e'⟩
      · rw [e', h1, h2, ← hp, ← ha]
      · cases e; cases h
      · cases e; exact absurd rfl h
  · rw [if_neg (fun e => h0 (List.length_eq_zero_iff.1 e))]
    by_cases h1 : (35 : Byte) ∈ a
    · rw [if_pos ((containsStr1 _ _).2 h1)]
      have := pair_iff (key_self bkw) a
      constructor
      · intro h
        cases hr : parseATBTV a [some (atbKey bkw)] with
        | error e => rw [hr] at h; cases h
        | ok A =>
          rw [hr] at h
          simp only [Except.ok.injEq] at h
          subst h
          exact ⟨Or.inr (Or.inl ⟨a, rfl, h1, (this A).1 hr, ha⟩), by rfl⟩
      · rintro ⟨(⟨(e | e), _⟩ | ⟨s, e, _, h2, h3⟩ | ⟨s, n, e, _, h, _⟩), e'⟩
        · cases e
        · cases e; exact absurd rfl h0
        · cases e
          rw [(this _).2 h2]
          simp only [Uri.set1]
          rw [e', h3, ← ha]
        · cases e; exact absurd h1 h
    · rw [if_neg (fun e => h1 ((containsStr1 _ _).1 e)), Except.ok.injEq]
      have e1 : transfer eq (atbList eq a) r.attrs =
          ⟨((Str.split1 44 (Str.dropSpaces a)).filterMap AT).map some, []⟩ := by
        rw [atbList, transfer, UAs, push_filter, ha]
        simp only [List.nil_append, List.map_map]
        have := push_names eq _ (names_attr (Str.split1 44 (Str.dropSpaces a))) []
        rw [List.nil_append] at this
        exact this
      constructor
      · rintro rfl
        refine ⟨Or.inr (Or.inr ⟨a, _, rfl, h0, h1, hp, e1, (picks_names _ _).2 rfl⟩), by rfl⟩
      · rintro ⟨(⟨(e | e), _⟩ | ⟨s, e, h, _⟩ | ⟨s, n, e, _, _, h2, h3, h4⟩), e'⟩
        · cases e
        · cases e; exact absurd rfl h0
        · cases e; exact absurd h h1
        · cases e
          rw [(picks_names _ _).1 h4] at e1
          simp only [Uri.set1, e1]
          rw [e', h2, h3, ← hp]

theorem name_iff (n : Str) (d : BindDN) : UDN n = d ↔ NamePart n d := by
  unfold UDN NamePart
  by_cases h : n = []
  · subst h
    rw [newDN_nil]
    constructor
    · rintro rfl; exact Or.inl ⟨rfl, rfl⟩
    · rintro (⟨_, rfl⟩ | ⟨h, _⟩)
      · rfl
      · exact absurd rfl h
  · rw [newDN_ne h]
    constructor
    · rintro rfl; exact Or.inr ⟨h, _, chop_iff.1 rfl, rfl⟩
    · rintro (⟨h', _⟩ | ⟨_, w, hw, rfl⟩)
      · exact absurd h' h
      · rw [chop_iff.2 hw]

theorem scope_iff (s : Str) (v : SearchScope) : SearchScope.strToScope s = v ↔ ScopePart (some s) v := by
  obtain ⟨h1, h2⟩ := SearchScope.C21_reader s
  constructor
  · rintro rfl
    by_cases h : ∃ k : Spec.Scope, Str.lower s ∈ k.spellings
    · obtain ⟨k, hk⟩ := h
      exact Or.inl ⟨s, k, rfl, hk, (h1 k).2 hk⟩
    · have h' : ∀ k : Spec.Scope, Str.lower s ∉ k.spellings := fun k hk => h ⟨k, hk⟩
      refine Or.inr ⟨fun t e k => ?_, h2.2 h'⟩
      cases e; exact h' k
  · rintro (⟨t, k, e, hk, rfl⟩ | ⟨h, rfl⟩)
    · cases e; exact (h1 k).2 hk
    · exact h2.2 (h s rfl)

theorem scope_none (v : SearchScope) : ScopePart none v ↔ v = 0 := by
  constructor
  · rintro (⟨t, k, e, _⟩ | ⟨_, h⟩)
    · cases e
    · exact h
  · intro h
    exact Or.inr ⟨fun t e => (by cases e), h⟩

theorem setScope_eq (eq : Str → Str → Bool) (r : Uri) (hr : r.scope = 0) (s : Str) :
    setScope eq r s = { r with scope := SearchScope.strToScope s } := by
  unfold setScope
  by_cases h : s.length > 0
  · rw [if_pos h]; rfl
  · have : s = [] := List.length_eq_zero_iff.1 (by omega)
    subst this
    rw [if_neg (by simp)]
    have : SearchScope.strToScope [] = 0 := by decide
    rw [this, ← hr]

theorem components_iff (eq : Str → Str → Bool) (n : Str) (parts : List Str) (bkw : List BindKeyword) (u : Uri) :
    assertURIComponents eq newURI (n :: parts) bkw = .ok u ↔
      NamePart n u.dn ∧ AttrPart (pairKey bkw) parts[0]? u.avbt u.attrs ∧ ScopePart parts[1]? u.scope ∧
        u.filter = parts[2]? := by
  have none_part : ∀ p a, AttrPart (pairKey bkw) none p a ↔ p = ⟨0, none⟩ ∧ a = ⟨[], []⟩ := by
    intro p a
    constructor
    · rintro (⟨_, h⟩ | ⟨s, e, _⟩ | ⟨s, _, e, _⟩)
      · exact h
      · cases e
      · cases e
    · exact fun h => Or.inl ⟨Or.inl rfl, h⟩
  have map_ok : ∀ {f : Uri → Uri} {x : Except Unit Uri} {y : Uri}, x.map f = .ok y ↔ ∃ z, x = .ok z ∧ f z = y := by
    intro f x y
    cases x with
    | error e => simp [Except.map]
    | ok z => simp [Except.map]
  have ext : ∀ x y : Uri, x = y ↔ x.dn = y.dn ∧ x.scope = y.scope ∧ x.avbt = y.avbt ∧ x.attrs = y.attrs ∧
      x.filter = y.filter := by
    rintro ⟨⟩ ⟨⟩
    simp
  have atb := fun a => atb_iff eq (newURI.set1 eq (.dn (UDN n))) rfl rfl a bkw
  match parts with
  | [] =>
    simp only [assertURIComponents, Except.ok.injEq, List.getElem?_nil, none_part, scope_none]
    rw [ext]
    simp only [Uri.set1, newURI, UAs, ABTV.zero, SearchScope.noScope]
    rw [← name_iff]
    constructor
    · rintro ⟨h1, h2, h3, h4, h5⟩; exact ⟨h1, ⟨h3.symm, h4.symm⟩, h2.symm, h5.symm⟩
    · rintro ⟨h1, ⟨h3, h4⟩, h2, h5⟩; exact ⟨h1, h2.symm, h3.symm, h4.symm, h5.symm⟩
  | [a] =>
    simp only [assertURIComponents, atb, List.getElem?_cons_zero, List.getElem?_cons_succ, List.getElem?_nil, scope_none]
    rw [ext]
    simp only [Uri.set1, newURI, SearchScope.noScope, true_and]
    rw [← name_iff]
    constructor
    · rintro ⟨h1, h2, h3, h4⟩; exact ⟨h2.symm, h1, h3, h4⟩
    · rintro ⟨h2, h1, h3, h4⟩; exact ⟨h1, h2.symm, h3, h4⟩
  | [a, s] =>
    simp only [assertURIComponents, map_ok, atb, List.getElem?_cons_zero, List.getElem?_cons_succ, List.getElem?_nil]
    constructor
    · rintro ⟨z, ⟨h1, h2⟩, rfl⟩
      rw [ext] at h2
      simp only [Uri.set1, newURI, SearchScope.noScope, true_and] at h2
      rw [setScope_eq eq z h2.2.1]
      exact ⟨(name_iff _ _).1 h2.1.symm, h1, (scope_iff _ _).1 rfl, h2.2.2⟩
    · rintro ⟨h1, h2, h3, h4⟩
      refine ⟨⟨UDN n, 0, u.avbt, u.attrs, none⟩, ⟨h2, rfl⟩, ?_⟩
      rw [setScope_eq eq _ rfl, ext]
      exact ⟨(name_iff _ _).2 h1, (scope_iff _ _).2 h3, rfl, rfl, h4.symm⟩
  | a :: s :: f :: rest =>
    simp only [assertURIComponents, map_ok, atb, List.getElem?_cons_zero, List.getElem?_cons_succ]
    constructor
    · rintro ⟨z, ⟨h1, h2⟩, rfl⟩
      rw [ext] at h2
      simp only [Uri.set1, newURI, SearchScope.noScope, true_and] at h2
      rw [setScope_eq eq z h2.2.1]
      exact ⟨(name_iff _ _).1 h2.1.symm, h1, (scope_iff _ _).1 rfl, rfl⟩
    · rintro ⟨h1, h2, h3, h4⟩
      refine ⟨⟨UDN n, 0, u.avbt, u.attrs, none⟩, ⟨h2, rfl⟩, ?_⟩
      rw [setScope_eq eq _ rfl, ext]
      exact ⟨(name_iff _ _).2 h1, (scope_iff _ _).2 h3, rfl, rfl, h4.symm⟩

/-- **C89**, the full claim: only well-formed texts are read, and the URI holds the parts of
the text. -/
def OnlyWellFormed : Prop :=
  ∀ (E : EqualFold) (x : Str) (bkw : List BindKeyword) (u : Uri), parseLDAPURI E.eq x bkw = .ok u →
    WellFormed x ∧ TextOf (pairKey bkw) x u

/-- **C89**, exactly which texts are read, and as what.  Missing: malformed texts are read too.  A
scope that is none and attributes that are none are passed over, as is everything behind a fourth
question mark; the name may lack, and so may what follows a number sign. -/
theorem C89_exact_partial (E : EqualFold) (x : Str) (bkw : List BindKeyword) (u : Uri) :
    parseLDAPURI E.eq x bkw = .ok u ↔ TextOf (pairKey bkw) x u := by
  unfold parseLDAPURI TextOf
  by_cases h : ∃ r, x = scheme ++ r
  · obtain ⟨r, rfl⟩ := h
    have hp : Str.hasPrefix (scheme ++ r) Levels.LocalScheme = true := Str.hasPrefix_iff.2 ⟨r, rfl⟩
    rw [hp, if_neg (by simp)]
    have hd : (scheme ++ r).drop Levels.LocalScheme.length = r := List.drop_left
    rw [hd]
    cases hs : Str.split1 63 r with
    | nil => exact absurd hs (Str.split1_ne_nil _ _)
    | cons n parts =>
      rw [components_iff]
      have hj := Str.join_split1 63 r
      rw [hs] at hj
      constructor
      · intro hu
        refine ⟨n, parts, by rw [← hj], ?_, hu⟩
        intro p hp
        exact Str.split1_not_mem (hs ▸ hp)
      · rintro ⟨n', parts', he, hno, hu⟩
        have e := List.append_cancel_left he
        have e2 : Str.split1 63 r = n' :: parts' := by rw [e]; exact Str.split1_join (by simp) hno
        rw [hs] at e2
        cases e2
        exact hu
  · rw [if_pos (by
      cases hp : Str.hasPrefix x Levels.LocalScheme with
      | false => rfl
      | true => exact absurd (Str.hasPrefix_iff.1 hp) h)]
    constructor
    · intro h; cases h
    · rintro ⟨n, parts, e, _⟩
      exact absurd ⟨_, e⟩ h

/-- **C89**: every well-formed text is read. -/
theorem C89_read (E : EqualFold) (x : Str) (bkw : List BindKeyword) (h : WellFormed x) :
    ∃ u, parseLDAPURI E.eq x bkw = .ok u ∧ TextOf (pairKey bkw) x u := by
  obtain ⟨n, parts, rfl, hno, hn, _, ha, _⟩ := h
  have hA : ∃ p l, AttrPart (pairKey bkw) parts[0]? p l := by
    cases h0 : parts[0]? with
    | none => exact ⟨_, _, Or.inl ⟨Or.inl rfl, rfl, rfl⟩⟩
    | some a =>
      rcases ha a h0 with rfl | ⟨p, q, rfl, hp, hq⟩ | ⟨h1, h2⟩
      · exact ⟨_, _, Or.inl ⟨Or.inr rfl, rfl, rfl⟩⟩
      · by_cases hb : ∃ b, BindTypeText b q
        · obtain ⟨b, hb⟩ := hb
          exact ⟨_, _, Or.inr (Or.inl ⟨_, rfl, by simp, .type hp hb, rfl⟩)⟩
        · exact ⟨_, _, Or.inr (Or.inl ⟨_, rfl, by simp, .value hp (fun b h => hb ⟨b, h⟩) hq, rfl⟩)⟩
      · by_cases h3 : a = []
        · subst h3
          exact ⟨_, _, Or.inl ⟨Or.inr rfl, rfl, rfl⟩⟩
        · exact ⟨_, _, Or.inr (Or.inr ⟨a, _, rfl, h3, h1, rfl, rfl, (picks_names _ _).2 rfl⟩)⟩
  obtain ⟨p, l, hA⟩ := hA
  have hS : ∃ v, ScopePart parts[1]? v := by
    cases parts[1]? with
    | none => exact ⟨0, (scope_none 0).2 rfl⟩
    | some s => exact ⟨_, (scope_iff s _).1 rfl⟩
  obtain ⟨v, hS⟩ := hS
  have hu : TextOf (pairKey bkw) (scheme ++ Str.join b!"?" (n :: parts)) ⟨UDN n, v, p, l, parts[2]?⟩ :=
    ⟨n, parts, rfl, hno, (name_iff _ _).1 rfl, hA, hS, rfl⟩
  exact ⟨_, (C89_exact_partial E _ bkw _).2 hu, hu⟩

/-- **C89** fails: in `ldap:///cn=x??somewhere` the scope is passed over. -/
theorem C89_counterexample : ¬ OnlyWellFormed := by
  intro h
  have e : ∃ u, parseLDAPURI EqualFold.ref.eq b!"ldap:///cn=x??somewhere" [] = .ok u := ⟨_, rfl⟩
  obtain ⟨u, hu⟩ := e
  obtain ⟨⟨n, parts, e, hno, _, _, _, hs⟩, _⟩ := h .ref _ _ u hu
  have e1 := Str.split1_join (c := 63) (l := n :: parts) (by simp) hno
  have e2 : Str.join b!"?" (n :: parts) = b!"cn=x??somewhere" :=
    (List.append_cancel_left (as := scheme) (show scheme ++ b!"cn=x??somewhere" = _ from e)).symm
  rw [show Str.join [63] (n :: parts) = _ from e2] at e1
  have e3 : Str.split1 63 b!"cn=x??somewhere" = [b!"cn=x", [], b!"somewhere"] := by decide
  rw [e3] at e1
  cases e1
  rcases hs _ rfl with h | ⟨k, hk⟩
  · cases h
  · revert hk
    cases k <;> decide

/-- **C89** fails also for the other parts: a fifth part, texts that are no attributes, a missing
name and a missing value are all passed over. -/
theorem C89_counterexample_parts (E : EqualFold) :
    (∃ u, parseLDAPURI E.eq b!"ldap:///cn=x????(cn=*)" [] = .ok u ∧ u.filter = some []) ∧
    (∃ u, parseLDAPURI E.eq b!"ldap:///cn=x?cn,=,sn" [] = .ok u ∧ u.attrs.entries = [some b!"cn", some b!"sn"]) ∧
    (∃ u, parseLDAPURI E.eq b!"ldap:///" [] = .ok u ∧ u.dn = some ⟨BindUDN, none⟩) ∧
    ∃ u, parseLDAPURI E.eq b!"ldap:///cn=x?cn#" [] = .ok u ∧ u.avbt.cell = some ⟨some (some b!"cn"), .av none⟩ := by
  have cn : AttrName b!"cn" := (AT_some _).1 (by decide)
  have sn : AttrName b!"sn" := (AT_some _).1 (by decide)
  have eqs : ¬ AttrName b!"=" := (AT_none _).1 (by decide)
  have nm : NamePart b!"cn=x" (some ⟨BindUDN, some b!"cn=x"⟩) :=
    Or.inr ⟨by decide, _, chop_iff.1 (by decide), rfl⟩
  refine ⟨?_, ?_, ?_, ?_⟩
  · exact ⟨⟨_, _, _, _, _⟩, (C89_exact_partial E _ _ _).2 ⟨b!"cn=x", [[], [], [], b!"(cn=*)"], by decide,
      by decide, nm, Or.inl ⟨Or.inr rfl, rfl, rfl⟩, (scope_iff [] _).1 rfl, rfl⟩, rfl⟩
  · exact ⟨⟨_, _, _, _, _⟩, (C89_exact_partial E _ _ _).2 ⟨b!"cn=x", [b!"cn,=,sn"], by decide,
      by decide, nm, Or.inr (Or.inr ⟨b!"cn,=,sn", [b!"cn", b!"sn"], rfl, by decide, by decide, rfl, rfl,
        .take ⟨rfl, cn⟩ (.skip (fun e h => eqs (h.1 ▸ h.2)) (.take ⟨rfl, sn⟩ .nil))⟩), (scope_none _).2 rfl, rfl⟩, rfl⟩
  · exact ⟨⟨_, _, _, _, _⟩, (C89_exact_partial E _ _ _).2 ⟨[], [], by decide,
      by decide, Or.inl ⟨rfl, rfl⟩, Or.inl ⟨Or.inl rfl, rfl, rfl⟩, (scope_none _).2 rfl, rfl⟩, rfl⟩
  · exact ⟨⟨_, _, _, _, _⟩, (C89_exact_partial E _ _ _).2 ⟨b!"cn=x", [b!"cn#"], by decide,
      by decide, nm, Or.inr (Or.inl ⟨_, rfl, by decide, .empty cn, rfl⟩), (scope_none _).2 rfl, rfl⟩, rfl⟩

example : WellFormed b!"ldap:///cn=x?cn, sn?SUB?(cn=*)" := by
  have cn : AttrName b!"cn" := (AT_some _).1 (by decide)
  have sn : AttrName b!"sn" := (AT_some _).1 (by decide)
  have e : Str.split1 44 (Str.dropSpaces b!"cn, sn") = [b!"cn", b!"sn"] := by decide
  refine ⟨b!"cn=x", [b!"cn, sn", b!"SUB", b!"(cn=*)"], by decide, by decide, by decide, by decide, ?_, ?_⟩
  · rintro a ⟨rfl⟩
    refine Or.inr (Or.inr ⟨by decide, ?_⟩)
    rw [e]
    simp only [List.mem_cons, List.not_mem_nil, or_false]
    rintro y (rfl | rfl)
    · exact cn
    · exact sn
  · rintro s ⟨rfl⟩
    exact Or.inr ⟨.sub, by decide⟩

end Verif.Uri
