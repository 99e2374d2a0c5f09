import Verif.Lemmas.DN
import Verif.Lemmas.Misc
import Verif.Lemmas.Case
import Verif.Lemmas.Inside

/-!
# C33 to C36: distinguished names and lists of them
-/

namespace Verif.DN
open Verif Verif.Spec Verif.Misc Verif.DNList Verif.Uri

/-! ## C33 -/

/-- **C33.** A name built from a text `v` that is not empty prints as `ldap:///`
followed by `v` without its scheme, for bind and for target names, whatever the
keyword. -/
theorem C33_print (kw : UInt8) {v w : Str} (hv : v ≠ []) (h : Bare v w) :
    BindDN.string (some (newDN v kw)) = scheme ++ w ∧
    TargetDN.string (some (newDN v kw)) = scheme ++ w := by
  rw [newDN_ne hv, chop_iff.2 h]; exact ⟨rfl, rfl⟩

example : Bare b!"ldap:///uid=jesse" b!"uid=jesse" ∧ Bare b!"uid=jesse" b!"uid=jesse" :=
  ⟨Or.inl rfl, Or.inr ⟨rfl, by intro x h; simp [scheme] at h⟩⟩

/-- **C33.** Building again from the printed text changes nothing. -/
theorem C33_again (kw : UInt8) {v : Str} (hv : v ≠ []) :
    newDN (BindDN.string (some (newDN v kw))) kw = newDN v kw ∧
    newDN (TargetDN.string (some (newDN v kw))) kw = newDN v kw := by
  rw [newDN_ne hv]
  have h : newDN (scheme ++ chopDNPfx v) kw = ⟨kw, some (chopDNPfx v)⟩ := by
    rw [newDN_ne (by simp [scheme]), chop_scheme]
  exact ⟨h, h⟩

example : newDN b!"ldap:///ldap:///x" 1 ≠ newDN b!"ldap:///x" 1 := by decide

/-- **C33.** The six constructors build names with their own keyword and with the text
without scheme. -/
theorem C33_constructors {v w : Str} (hv : v ≠ []) (h : Bare v w) :
    UDN v = some ⟨BindUDN, some w⟩ ∧ RDN v = some ⟨BindRDN, some w⟩ ∧
    GDN v = some ⟨BindGDN, some w⟩ ∧ TDN v = some ⟨Target, some w⟩ ∧
    TTDN v = some ⟨TargetTo, some w⟩ ∧ TFDN v = some ⟨TargetFrom, some w⟩ := by
  simp only [UDN, RDN, GDN, TDN, TTDN, TFDN, newDN_ne hv, chop_iff.2 h, and_self]

example : TTDN b!"ldap:///ou=people" = some ⟨TargetTo, some b!"ou=people"⟩ :=
  (C33_constructors (by decide) (Or.inl rfl)).2.2.2.2.1

/-- **C33.** `Set` on any receiver gives a name that prints as `ldap:///` followed by
`v` without its scheme. -/
theorem C33_set {v w : Str} (hv : v ≠ []) (h : Bare v w) (r : Option DName) (bk : List BindKeyword)
    (tk : List TargetKeyword) :
    BindDN.string (BindDN.set r v bk) = scheme ++ w ∧
    TargetDN.string (TargetDN.set r v tk) = scheme ++ w := by
  have hl : v.length ≠ 0 := fun e => hv (List.length_eq_zero_iff.1 e)
  have key : ∀ k, setWith r v k = some (newDN v k) := by
    intro k
    unfold setWith
    split
    · simp [DName.set, hl]
    · simp [DName.set, hl]
  rw [BindDN.set, TargetDN.set, key, key]
  exact ⟨(C33_print _ hv h).1, (C33_print _ hv h).2⟩

example : BindDN.string (BindDN.set (RDN b!"cn=a") b!"ldap:///ou=people" []) = b!"ldap:///ou=people" :=
  (C33_set (by decide) (Or.inl rfl) _ _ []).1

/-- **C33.** `Set` gives a name of the keyword asked for, if it is one of the kind of
name, otherwise of `userdn` or `target`; an empty text leaves a name that has a text as it
is. -/
theorem C33_set_keyword {v w : Str} (hv : v ≠ []) (h : Bare v w) (r : Option DName) :
    (∀ k ks, k = BindUDN ∨ k = BindGDN ∨ k = BindRDN → BindDN.set r v (k :: ks) = some ⟨k, some w⟩) ∧
    (∀ k ks, ¬ (k = BindUDN ∨ k = BindGDN ∨ k = BindRDN) → BindDN.set r v (k :: ks) = some ⟨BindUDN, some w⟩) ∧
    BindDN.set r v [] = some ⟨BindUDN, some w⟩ ∧
    (∀ k ks, k = Target ∨ k = TargetTo ∨ k = TargetFrom → TargetDN.set r v (k :: ks) = some ⟨k, some w⟩) ∧
    (∀ k ks, ¬ (k = Target ∨ k = TargetTo ∨ k = TargetFrom) →
      TargetDN.set r v (k :: ks) = some ⟨Target, some w⟩) ∧
    TargetDN.set r v [] = some ⟨Target, some w⟩ ∧
    (∀ d t bk tk, r = some d → d.text = some t → BindDN.set r [] bk = r ∧ TargetDN.set r [] tk = r) := by
  have hl : v.length ≠ 0 := fun e => hv (List.length_eq_zero_iff.1 e)
  have key : ∀ k, setWith r v k = some ⟨k, some w⟩ := by
    intro k
    have e : newDN v k = ⟨k, some w⟩ := by rw [newDN_ne hv, chop_iff.2 h]
    unfold setWith
    split
    · simp [DName.set, hl, e]
    · simp [DName.set, hl, e]
  simp only [BindDN.set, TargetDN.set, key]
  refine ⟨?_, ?_, rfl, ?_, ?_, rfl, ?_⟩
  · rintro k ks (rfl | rfl | rfl) <;> rfl
  · intro k ks hk
    simp only [not_or] at hk
    simp [bindSetKey, hk.2.1, hk.2.2]
  · rintro k ks (rfl | rfl | rfl) <;> rfl
  · intro k ks hk
    simp only [not_or] at hk
    simp [targetSetKey, hk.2.1, hk.2.2]
  · rintro d t bk tk rfl ht
    simp [setWith, isZero, ht, DName.set]

example : BindDN.set (UDN b!"cn=a") b!"ldap:///cn=b" [BindRDN, BindGDN] = some ⟨BindRDN, some b!"cn=b"⟩ :=
  (C33_set_keyword (by decide) (.inl rfl) _).1 _ _ (.inr (.inr rfl))

/-! ## C34 -/

/-- The entries of a list of keyword `kw`, with equality of texts up to case. -/
def sameText (F : EqualFold) (a b : BEntry) : Bool := F.eq a.string b.string

/-- Equality of texts up to case for target names. -/
def sameTargetText (F : EqualFold) (a b : TargetDN) : Bool :=
  F.eq (TargetDN.string a) (TargetDN.string b)

/-- **C34**, bind lists.  After any history of `Push` calls on an empty list of keyword
`kw` the entries are, in order, the first offers (up to letter case of the text) of the
eligible arguments, each call counting up to its first argument that is not eligible. -/
theorem C34_bind_entries (F : EqualFold) (kw : BindKeyword) (calls : List (List BArg)) :
    (∃ offered, HistOffers (bindOffer kw) calls offered) ∧
    ∀ offered, HistOffers (bindOffer kw) calls offered →
      (calls.foldl (BDNs.push F.eq) ⟨kw, []⟩).entries = firsts (sameText F) offered := by
  constructor
  · exact ⟨_, (histOffers_iff (pushBindArg_iff kw) calls _).2 rfl⟩
  · intro offered h
    rw [(histOffers_iff (pushBindArg_iff kw) calls offered).1 h, push_entries]
    exact foldl_addNew (sameText F) (fun a b c => F.trans _ _ _) _

/-- **C34**, target lists. -/
theorem C34_target_entries (F : EqualFold) (kw : TargetKeyword) (calls : List (List TArg)) :
    (∃ offered, HistOffers (targetOffer kw) calls offered) ∧
    ∀ offered, HistOffers (targetOffer kw) calls offered →
      (calls.foldl (TDNs.push F.eq) ⟨kw, []⟩).entries = firsts (sameTargetText F) offered := by
  constructor
  · exact ⟨_, (histOffers_iff (pushTargetArg_iff kw) calls _).2 rfl⟩
  · intro offered h
    rw [(histOffers_iff (pushTargetArg_iff kw) calls offered).1 h, pushT_entries]
    exact foldl_addNew (sameTargetText F) (fun a b c => F.trans _ _ _) _

/-- Two calls: the second argument of the first call repeats the first in other case,
the empty text ends the first call. -/
example : ((([[.str b!"cn=a", .str b!"ldap:///CN=A", .str [], .str b!"cn=lost"],
      [.str b!"cn=b"]] : List (List BArg)).foldl (BDNs.push EqualFold.ref.eq)
        ⟨BindUDN, []⟩).entries.map BEntry.string)
    = [b!"ldap:///cn=a", b!"ldap:///cn=b"] := by decide +kernel

/-- A call on a list: `Push` or `Pop`. -/
inductive BCall where
  | push (x : List BArg)
  | pop

/-- A call on a target list. -/
inductive TCall where
  | push (x : List TArg)
  | pop

/-- The list after a call. -/
def bindStep (eq : Str → Str → Bool) (r : BDNs) : BCall → BDNs
  | .push x => r.push eq x
  | .pop => r.pop.1

/-- The target list after a call. -/
def targetStep (eq : Str → Str → Bool) (r : TDNs) : TCall → TDNs
  | .push x => r.push eq x
  | .pop => r.pop.1

/-- **C34**, bind lists, also with `Pop` calls in between: the list keeps its keyword,
every held name has it and is set, and no two entries have the same text up to letter
case. -/
theorem C34_bind_invariant (F : EqualFold) (kw : BindKeyword) (calls : List BCall) :
    let r := calls.foldl (bindStep F.eq) ⟨kw, []⟩
    r.kw = kw ∧ (∀ d, BEntry.dn d ∈ r.entries → ∃ w, d = some ⟨kw, some w⟩) ∧
    Distinct (sameText F) r.entries := by
  suffices H : ∀ (r : BDNs), r.kw = kw → (∀ d, BEntry.dn d ∈ r.entries → ∃ w, d = some ⟨kw, some w⟩) →
      Distinct (sameText F) r.entries →
      let r' := calls.foldl (bindStep F.eq) r
      r'.kw = kw ∧ (∀ d, BEntry.dn d ∈ r'.entries → ∃ w, d = some ⟨kw, some w⟩) ∧
      Distinct (sameText F) r'.entries from
    H ⟨kw, []⟩ rfl (by intro d hd; simp at hd) (distinct_nil _)
  induction calls with
  | nil => intro r h1 h2 h3; exact ⟨h1, h2, h3⟩
  | cons c calls ih =>
    intro r h1 h2 h3
    refine ih (bindStep F.eq r c) ?_ ?_ ?_
    · cases c <;> exact h1
    · cases c with
      | push x =>
        intro d hd
        simp only [bindStep, BDNs.push, pushLoop_eq] at hd
        rcases mem_foldl_addNew hd with h | h
        · exact h2 d h
        · obtain ⟨x', _, hx'⟩ := List.mem_map.1 (mem_upToGap h)
          rw [h1] at hx'
          rcases (pushBindArg_iff kw x' (.dn d)).1 hx' with ⟨s, w, _, _, _, he⟩ | ⟨w, _, he⟩ | ⟨u, _, he⟩
          · injection he with he; exact ⟨w, he⟩
          · injection he with he; exact ⟨w, he⟩
          · cases he
      | pop => intro d hd; exact h2 d (List.dropLast_subset _ hd)
    · cases c with
      | push x =>
        simp only [bindStep, BDNs.push, pushLoop_eq]
        exact distinct_foldl _ h3
      | pop => exact distinct_dropLast h3

/-- **C34**, target lists, also with `Pop` calls in between. -/
theorem C34_target_invariant (F : EqualFold) (kw : TargetKeyword) (calls : List TCall) :
    let r := calls.foldl (targetStep F.eq) ⟨kw, []⟩
    r.kw = kw ∧ (∀ d ∈ r.entries, ∃ w, d = some ⟨kw, some w⟩) ∧
    Distinct (sameTargetText F) r.entries := by
  suffices H : ∀ (r : TDNs), r.kw = kw → (∀ d ∈ r.entries, ∃ w, d = some ⟨kw, some w⟩) →
      Distinct (sameTargetText F) r.entries →
      let r' := calls.foldl (targetStep F.eq) r
      r'.kw = kw ∧ (∀ d ∈ r'.entries, ∃ w, d = some ⟨kw, some w⟩) ∧
      Distinct (sameTargetText F) r'.entries from
    H ⟨kw, []⟩ rfl (by intro d hd; simp at hd) (distinct_nil _)
  induction calls with
  | nil => intro r h1 h2 h3; exact ⟨h1, h2, h3⟩
  | cons c calls ih =>
    intro r h1 h2 h3
    refine ih (targetStep F.eq r c) ?_ ?_ ?_
    · cases c <;> exact h1
    · cases c with
      | push x =>
        intro d hd
        simp only [targetStep, TDNs.push, pushTargetLoop_eq] at hd
        rcases mem_foldl_addNew hd with h | h
        · exact h2 d h
        · obtain ⟨x', _, hx'⟩ := List.mem_map.1 (mem_upToGap h)
          rw [h1] at hx'
          rcases (pushTargetArg_iff kw x' d).1 hx' with ⟨s, w, _, _, _, he⟩ | ⟨w, _, he⟩
          · exact ⟨w, he⟩
          · exact ⟨w, he⟩
      | pop => intro d hd; exact h2 d (List.dropLast_subset _ hd)
    · cases c with
      | push x =>
        simp only [targetStep, TDNs.push, pushTargetLoop_eq]
        exact distinct_foldl _ h3
      | pop => exact distinct_dropLast h3

example : (((([.push [.str b!"cn=a", .str b!"ldap:///CN=A"], .pop, .push [.str b!"cn=b"]] : List TCall)).foldl
    (targetStep EqualFold.ref.eq) ⟨TargetTo, []⟩).entries.map TargetDN.string) = [b!"ldap:///cn=b"] := by
  decide +kernel

/-- **C34.** The constructors of bind lists make lists of their keyword that hold the
first offers of their arguments. -/
theorem C34_bind_constructors (F : EqualFold) (x : List BArg) :
    (UDNs F.eq x).kw = BindUDN ∧ (RDNs F.eq x).kw = BindRDN ∧ (GDNs F.eq x).kw = BindGDN ∧
    (∀ o, CallOffers (bindOffer BindUDN) x o → (UDNs F.eq x).entries = firsts (sameText F) o) ∧
    (∀ o, CallOffers (bindOffer BindRDN) x o → (RDNs F.eq x).entries = firsts (sameText F) o) ∧
    (∀ o, CallOffers (bindOffer BindGDN) x o → (GDNs F.eq x).entries = firsts (sameText F) o) := by
  have key : ∀ kw o, CallOffers (bindOffer kw) x o →
      (BDNs.push F.eq ⟨kw, []⟩ x).entries = firsts (sameText F) o := by
    intro kw o h
    have := (C34_bind_entries F kw [x]).2 (o ++ []) (.cons h .nil)
    rw [List.append_nil] at this
    exact this
  exact ⟨rfl, rfl, rfl, key _, key _, key _⟩

/-- **C34.** The constructors of target lists likewise. -/
theorem C34_target_constructors (F : EqualFold) (x : List TArg) :
    (TDNsOf F.eq x).kw = Target ∧ (TTDNs F.eq x).kw = TargetTo ∧ (TFDNs F.eq x).kw = TargetFrom ∧
    (∀ o, CallOffers (targetOffer Target) x o →
      (TDNsOf F.eq x).entries = firsts (sameTargetText F) o) ∧
    (∀ o, CallOffers (targetOffer TargetTo) x o →
      (TTDNs F.eq x).entries = firsts (sameTargetText F) o) ∧
    (∀ o, CallOffers (targetOffer TargetFrom) x o →
      (TFDNs F.eq x).entries = firsts (sameTargetText F) o) := by
  have key : ∀ kw o, CallOffers (targetOffer kw) x o →
      (TDNs.push F.eq ⟨kw, []⟩ x).entries = firsts (sameTargetText F) o := by
    intro kw o h
    have := (C34_target_entries F kw [x]).2 (o ++ []) (.cons h .nil)
    rw [List.append_nil] at this
    exact this
  exact ⟨rfl, rfl, rfl, key _, key _, key _⟩

example : ∃ o, CallOffers (targetOffer Target) [.str b!"cn=a", .other, .str b!"cn=b"] o ∧ o.length = 1 :=
  ⟨_, .cons (Or.inl ⟨b!"cn=a", b!"cn=a", rfl, by decide,
    Or.inr ⟨rfl, by intro x h; simp [scheme] at h⟩, rfl⟩)
    (.stop fun e h => by rcases h with ⟨s, w, h, _⟩ | ⟨w, h, _⟩ <;> cases h), rfl⟩

/-- **C34.** `Contains` answers whether some entry has the text of the argument up to
letter case, a text standing for the name made from it. -/
theorem C34_contains (F : EqualFold) (r : BDNs) (x : BArg) (e : BEntry)
    (h : bindOffer r.kw x e) :
    r.contains F.eq x = true ↔ ∃ e' ∈ r.entries, sameText F e' e = true := by
  have : bindCandidate r.kw x = e.string := by
    rcases h with ⟨s, w, rfl, hs, hb, rfl⟩ | ⟨w, rfl, rfl⟩ | ⟨u, rfl, rfl⟩
    · rw [bindCandidate, newDN_ne hs, chop_iff.2 hb]; rfl
    · rfl
    · rfl
  simp [BDNs.contains, containsText, this, sameText]

example : (UDNs EqualFold.ref.eq [.str b!"cn=a"]).contains EqualFold.ref.eq (.str b!"LDAP") = false ∧
    (UDNs EqualFold.ref.eq [.str b!"cn=a"]).contains EqualFold.ref.eq (.str b!"ldap:///CN=a") = true := by
  decide +kernel

/-! ## C35 -/

/-- **C35**, first half as stated: `Pop` returns the last entry. -/
def ClaimPopLast : Prop :=
  ∀ (r : BDNs) (e : BEntry), r.entries.getLast? = some e → BEntry.dn r.pop.2 = e

/-- **C35** fails: when an LDAP URI is last, `Pop` removes it and returns a zero name. -/
theorem C35_counterexample : ¬ ClaimPopLast := by
  intro h
  have := h ⟨BindUDN, [.uri none]⟩ (.uri none) rfl
  cases this

/-- **C35**, for lists whose last entry is a name (missing: URIs, see
`C35_counterexample`): `Pop` returns the last entry. -/
theorem C35_bind_partial (r : BDNs) (d : BindDN) (h : r.entries.getLast? = some (.dn d)) :
    r.pop.2 = d := by
  rw [BDNs.pop, h]; rfl

example : (BDNs.pop ⟨BindUDN, [.uri none, .dn (UDN b!"cn=a")]⟩).2 = UDN b!"cn=a" :=
  C35_bind_partial _ _ rfl

/-- **C35**: `Pop` removes the last entry and nothing else, URI or not. -/
theorem C35_removes (kw : BindKeyword) (es : List BEntry) (e : BEntry) :
    (BDNs.pop ⟨kw, es ++ [e]⟩).1 = ⟨kw, es⟩ := by
  simp [BDNs.pop]

/-- **C35** for target lists, in full. -/
theorem C35_target (kw : TargetKeyword) (es : List TargetDN) (d : TargetDN) :
    TDNs.pop ⟨kw, es ++ [d]⟩ = (⟨kw, es⟩, d) := by
  simp [TDNs.pop]

/-- **C35**: pushing a name that is eligible and not yet held, then popping, returns
that name and restores the list (missing: URIs). -/
theorem C35_push_pop_partial (F : EqualFold) (r : BDNs) (x : BArg) (d : BindDN)
    (h : bindOffer r.kw x (.dn d)) (hn : ∀ e ∈ r.entries, sameText F e (.dn d) = false) :
    BDNs.pop (r.push F.eq [x]) = (r, d) := by
  have h1 : pushBindArg r.kw x = some (.dn d) := (pushBindArg_iff _ _ _).2 h
  have h2 : pushEntry F.eq r.entries (.dn d) = r.entries ++ [.dn d] := by
    rw [pushEntry, if_neg]
    simp only [containsText, List.any_map, List.any_eq_true, Function.comp_apply, not_exists, not_and]
    intro e he hh
    have := hn e he
    rw [sameText, hh] at this; cases this
  simp only [BDNs.push, pushLoop, h1, h2, BDNs.pop]
  simp [popped]

example : bindOffer BindUDN (.str b!"cn=a") (.dn (some ⟨BindUDN, some b!"cn=a"⟩)) :=
  Or.inl ⟨b!"cn=a", b!"cn=a", rfl, by decide, Or.inr ⟨rfl, by intro x h; simp [scheme] at h⟩, rfl⟩

/-- **C35**: the same for target lists, in full. -/
theorem C35_target_push_pop (F : EqualFold) (r : TDNs) (x : TArg) (d : TargetDN)
    (h : targetOffer r.kw x d) (hn : ∀ e ∈ r.entries, sameTargetText F e d = false) :
    TDNs.pop (r.push F.eq [x]) = (r, d) := by
  have h1 : pushTargetArg r.kw x = some d := (pushTargetArg_iff _ _ _).2 h
  have h2 : pushTargetEntry F.eq r.entries d = r.entries ++ [d] := by
    rw [pushTargetEntry, if_neg]
    simp only [containsText, List.any_map, List.any_eq_true, Function.comp_apply, not_exists, not_and]
    intro e he hh
    have := hn e he
    rw [sameTargetText, hh] at this; cases this
  simp only [TDNs.push, pushTargetLoop, h1, h2, TDNs.pop]
  simp

/-! ## C36 -/

/-- The value `v` of a target rule is taken as a name of keyword `k`. -/
def TargetTakes (F : EqualFold) (k : TargetKeyword) (v : Str) : Prop :=
  ∃ r, setTargetValues F.eq ⟨k, []⟩ k [v] = .ok r

/-- The value `v` of a bind rule is taken as a name of keyword `k`. -/
def BindTakes (F : EqualFold) (k : BindKeyword) (v : Str) : Prop :=
  ∃ r, setBindValues F.eq ⟨k, []⟩ k [v] = .ok r

/-- **C36** as stated, for values without white space. -/
def ClaimMalformed : Prop :=
  ∀ (F : EqualFold) (k : TargetKeyword) (v : Str), (∀ c ∈ v, 33 ≤ c ∧ c < 127) →
    TargetTakes F k v → 61 ∈ v ∨ ∃ a ∈ aliasNames, v = a ∨ v = scheme ++ a

/-- **C36**, exactly which names are refused (missing: texts that hold no `=` and are no
alias are taken, see `C36_counterexample`).  After white space and one scheme are
removed, a name is refused exactly when it is shorter than three bytes, or holds no `=`
and is once more the scheme followed by an alias, in any case. -/
theorem C36_syntax_partial (d : Str) :
    isInvalidDNSyntax d = true ↔
      d.length < 3 ∨ (61 ∉ d ∧ ∃ a ∈ aliasNames, Str.fold d = Str.fold (scheme ++ a)) := by
  have ha : isDNAlias d = true ↔ ∃ a ∈ aliasNames, Str.fold d = Str.fold (scheme ++ a) := by
    simp only [isDNAlias, aliases, aliasNames, List.any_cons, List.any_nil, Bool.or_false,
      Bool.or_eq_true, List.mem_cons, List.not_mem_nil, or_false, exists_eq_or_imp, exists_eq_left,
      Str.eqFold, beq_iff_eq]
    rfl
  rw [isInvalidDNSyntax, Bool.or_eq_true, decide_eq_true_eq, ← ha]
  have hc := containsStr1 d 61
  cases h1 : Str.containsStr d b!"=" <;> cases h2 : isDNAlias d <;> simp [h1] at hc ⊢ <;>
    simp [hc]

theorem goodSyntax_iff (w : Str) : isInvalidDNSyntax w = false ↔
    3 ≤ w.length ∧ (61 ∈ w ∨ ∀ a ∈ aliasNames, Str.fold w ≠ Str.fold (scheme ++ a)) := by
  rw [Bool.eq_false_iff, ne_eq, C36_syntax_partial]
  constructor
  · intro h
    refine ⟨Nat.le_of_not_lt fun hl => h (Or.inl hl), ?_⟩
    by_cases h61 : 61 ∈ w
    · exact Or.inl h61
    · exact Or.inr fun a ha e => h (Or.inr ⟨h61, a, ha, e⟩)
  · rintro ⟨h1, h2⟩ (h | ⟨h3, a, ha, e⟩)
    · omega
    · rcases h2 with h2 | h2
      · exact h3 h2
      · exact h2 a ha e

/-- **C36**, target rules: a value is taken exactly when the name left after white space
and one scheme are removed is not refused (missing: as above). -/
theorem C36_target_partial (F : EqualFold) (k : TargetKeyword) (v c w : Str)
    (hc : Condenses v c) (h : Bare c w) :
    TargetTakes F k v ↔
      3 ≤ w.length ∧ (61 ∈ w ∨ ∀ a ∈ aliasNames, Str.fold w ≠ Str.fold (scheme ++ a)) := by
  rw [condenses_iff] at hc
  subst hc
  rw [← goodSyntax_iff, TargetTakes]
  simp only [setTargetValues, chop_iff.2 h]
  cases isInvalidDNSyntax w <;> simp

example : TargetTakes EqualFold.ref Target b!"ldap:///ou=people" :=
  (C36_target_partial _ _ _ _ b!"ou=people" (condenses_of _) ((chop_iff).1 (by decide +kernel))).2
    ⟨by decide, Or.inl (by decide)⟩

/-- **C36**, bind rules: a value that is no URI is taken exactly when the name left is
not refused and holds no question mark (missing: as above). -/
theorem C36_bind_partial (F : EqualFold) (k : BindKeyword) (v c w : Str)
    (hc : Condenses v c) (h : Bare c w) (hu : ¬ ((∃ x, v = scheme ++ x) ∧ 63 ∈ v)) :
    BindTakes F k v ↔
      (3 ≤ w.length ∧ (61 ∈ w ∨ ∀ a ∈ aliasNames, Str.fold w ≠ Str.fold (scheme ++ a))) ∧ 63 ∉ w := by
  rw [condenses_iff] at hc
  subst hc
  rw [← goodSyntax_iff]
  have h1 : (Str.hasPrefix v Levels.LocalScheme && Str.containsStr v b!"?") = false := by
    rw [Bool.eq_false_iff]
    intro h'
    rw [Bool.and_eq_true, containsStr1, Str.hasPrefix_iff] at h'
    exact hu ⟨h'.1, h'.2⟩
  have h2 := containsStr1 w 63
  rw [BindTakes]
  simp only [setBindValues, setBindValue, h1, chop_iff.2 h]
  cases isInvalidDNSyntax w <;> cases hc : Str.containsStr w b!"?" <;> simp [hc] at h2 ⊢ <;>
    simp [h2]

example : BindTakes EqualFold.ref BindGDN b!"cn=a,dc=example" :=
  (C36_bind_partial _ _ _ _ b!"cn=a,dc=example" (condenses_of _) ((chop_iff).1 (by decide +kernel))
    (fun h => absurd h.2 (by decide))).2 ⟨⟨by decide, Or.inl (by decide)⟩, by decide⟩

/-- **C36** fails: `foo` is taken as a name. -/
theorem C36_counterexample : ¬ ClaimMalformed := by
  intro h
  have hb : Bare (condenseWHSP b!"foo") b!"foo" :=
    Or.inr ⟨by decide +kernel, by
      intro x hx
      have e : condenseWHSP b!"foo" = b!"foo" := by decide +kernel
      rw [e] at hx; simp [scheme] at hx⟩
  have := h EqualFold.ref Target b!"foo" (by decide +kernel)
    ((C36_target_partial EqualFold.ref Target _ _ _ (condenses_of _) hb).2 (by decide +kernel))
  revert this; decide +kernel

/-- **C36**: names with a `=` and at least three bytes are taken, and so are the four
aliases, with or without scheme; shorter names are refused. -/
theorem C36_good {d : Str} (h : 3 ≤ d.length) (h' : 61 ∈ d) :
    isInvalidDNSyntax d = false ∧ ∀ a ∈ aliasNames, isInvalidDNSyntax a = false := by
  constructor
  · rw [Bool.eq_false_iff]
    intro hh
    rcases (C36_syntax_partial d).1 hh with hh | hh
    · omega
    · exact hh.1 h'
  · decide +kernel

example : isInvalidDNSyntax b!"a=b" = false := (C36_good (by decide) (by decide)).1

/-- **C36**: names shorter than three bytes are refused. -/
theorem C36_short (d : Str) (h : d.length < 3) : isInvalidDNSyntax d = true :=
  (C36_syntax_partial d).2 (Or.inl h)

example : isInvalidDNSyntax b!"c=" = true ∧ isInvalidDNSyntax b!"c=U" = false ∧
    isInvalidDNSyntax b!"ldap:///ALL" = true := by decide +kernel

end Verif.DN
