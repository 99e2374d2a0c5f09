import Verif.Spec.BindValues
import Verif.Props.Bind
import Verif.Props.TargetValues
import Verif.Props.UriText
import Verif.Props.Net
import Verif.Props.Sec
import Verif.Props.Time
import Verif.Lemmas.Inside

/-!
# C46, C65, C84: bind values are read as their keyword demands
-/

namespace Verif.Bind
open Verif Verif.Misc Verif.Attr Verif.DN Verif.DNList Verif.Spec Verif.Rules Verif.Levels

/-- The texts of the rule are read as the value `x`. -/
def ValueReadB (env : Env) (r : BRule) (x : BExpr) : Prop := ∃ r', Reads env r r' ∧ r'.ex = x

theorem valueReadB_iff {env : Env} {r : BRule} {k : BKw} {style : Int} {vs : List Str}
    (h : RawBind r k style vs) (x : BExpr) : ValueReadB env r x ↔ ValueOf env k vs x := by
  constructor
  · rintro ⟨r', hr, rfl⟩
    exact ((condition_read env r k style vs h).1 r' hr).2.2
  · exact fun hv => (condition_read env r k style vs h).2 x hv

/-- **C84.** The value read for a bind rule has the type its keyword demands. -/
theorem C84_type (env : Env) (r : BRule) (k : BKw) (style : Int) (vs : List Str) (h : RawBind r k style vs)
    (x : BExpr) (hx : ValueReadB env r x) : typeOfB x = some (demandsB k) := by
  rw [valueReadB_iff h] at hx
  cases x <;> simp only [ValueOf] at hx
  · rcases hx.1 with rfl | rfl | rfl <;> rfl
  · rcases hx.1 with rfl | rfl <;> rfl
  · rcases hx.1 with rfl | rfl <;> rfl
  · rcases hx.1 with rfl | rfl <;> rfl
  all_goals (obtain ⟨rfl, -⟩ := hx; rfl)

theorem uriText_iff (v : Str) :
    (Str.hasPrefix v LocalScheme && Str.containsStr v b!"?") = true ↔ UriText v := by
  rw [Bool.and_eq_true, Str.hasPrefix_iff, containsStr1]; rfl

theorem setBindValue_iff (F : EqualFold) (l l' : BDNs) (v : Str) :
    setBindValue F.eq l l.kw v = .ok l' ↔ ∃ e, TakenEntry l.kw v e ∧
      l' = ⟨l.kw, addNew (fun a b => F.eq a.string b.string) l.entries e⟩ := by
  have push : ∀ a e, pushBindArg l.kw a = some e →
      l.push F.eq [a] = ⟨l.kw, addNew (fun a b => F.eq a.string b.string) l.entries e⟩ := by
    intro a e ha
    have := push_entries F.eq [[a]] l
    simp only [List.foldl_cons, List.foldl_nil, List.flatMap_cons, List.flatMap_nil, List.map_cons, List.map_nil,
      ha, upToGap, List.append_nil] at this
    show BDNs.mk _ _ = BDNs.mk _ _
    congr 1
  unfold setBindValue TakenEntry
  by_cases hu : UriText v
  · rw [if_pos ((uriText_iff v).2 hu)]
    have hx := fun u => Uri.C89_exact_partial F v [l.kw] u
    cases hp : Uri.parseLDAPURI F.eq v [l.kw] with
    | error e =>
      have hx' : ∀ u, ¬ Uri.TextOf (Uri.pairKey [l.kw]) v u := fun u h => by
        rw [← hx, hp] at h; cases h
      simp [hu, hx']
    | ok u =>
      have hx' : ∀ u', Uri.TextOf (Uri.pairKey [l.kw]) v u' ↔ u' = u := fun u' => by
        rw [← hx, hp, Except.ok.injEq]; exact eq_comm
      simp only [Except.ok.injEq]
      rw [push (.uri (some u)) (.uri (some u)) rfl]
      constructor
      · rintro rfl; exact ⟨_, Or.inl ⟨hu, u, (hx' u).2 rfl, rfl⟩, rfl⟩
      · rintro ⟨e, (⟨_, u', hu', rfl⟩ | ⟨hn, _⟩), rfl⟩
        · rw [(hx' u').1 hu']
        · exact absurd hu hn
  · rw [if_neg (fun h => hu ((uriText_iff v).1 h))]
    have hq : (!isInvalidDNSyntax (chopDNPfx (condenseWHSP v))
        && !Str.containsStr (chopDNPfx (condenseWHSP v)) b!"?") = true ↔
        GoodName (chopDNPfx (condenseWHSP v)) ∧ 63 ∉ chopDNPfx (condenseWHSP v) := by
      rw [← goodName_iff, ← containsStr1]; simp
    by_cases hg : GoodName (chopDNPfx (condenseWHSP v)) ∧ 63 ∉ chopDNPfx (condenseWHSP v)
    · rw [if_pos (hq.2 hg), Except.ok.injEq]
      have hne : chopDNPfx (condenseWHSP v) ≠ [] := by
        intro e
        have := hg.1.1
        rw [e] at this
        simp at this
      rw [newDN_ne hne, push _ (.dn (some ⟨l.kw, some (chopDNPfx (chopDNPfx (condenseWHSP v)))⟩))
        (by rw [pushBindArg, if_pos ((named_iff _ _).2 ⟨_, rfl⟩)])]
      constructor
      · rintro rfl
        exact ⟨_, Or.inr ⟨hu, _, _, _, condenses_of v, chop_iff.1 rfl, hg.1, hg.2, chop_iff.1 rfl, rfl⟩, rfl⟩
      · rintro ⟨e, (⟨hn, _⟩ | ⟨_, c, u, w, h0, h1, _, _, h2, rfl⟩), rfl⟩
        · exact absurd hn hu
        · rw [(condenses_iff _ _).1 h0, chop_iff.2 h1, chop_iff.2 h2]
    · rw [if_neg (fun h => hg (hq.1 h))]
      constructor
      · intro h; cases h
      · rintro ⟨e, (⟨hn, _⟩ | ⟨_, c, u, w, h0, h1, h2, h3, _⟩), rfl⟩
        · exact absurd hn hu
        · rw [condenses_iff] at h0
          rw [← chop_iff] at h1
          subst h0; subst h1
          exact absurd ⟨h2, h3⟩ hg

theorem setBindValues_iff (F : EqualFold) (vs : List Str) (l l' : BDNs) :
    setBindValues F.eq l l.kw vs = .ok l' ↔ ∃ entry : Str → BEntry, (∀ v ∈ vs, TakenEntry l.kw v (entry v)) ∧
      l' = ⟨l.kw, (vs.map entry).foldl (addNew fun a b => F.eq a.string b.string) l.entries⟩ := by
  have det : ∀ key v e e', TakenEntry key v e → TakenEntry key v e' → e = e' := by
    rintro key v e e' (⟨h, u, h1, rfl⟩ | ⟨h, c, u, w, h0, h1, _, _, h2, rfl⟩)
      (⟨h', u', h1', rfl⟩ | ⟨h', c', u', w', h0', h1', _, _, h2', rfl⟩)
    · rw [← Uri.C89_exact_partial F] at h1 h1'; rw [h1] at h1'; cases h1'; rfl
    · exact absurd h h'
    · exact absurd h' h
    · rw [← chop_iff] at h1 h1' h2 h2'
      rw [condenses_iff] at h0 h0'
      subst h0; subst h0'; subst h1; subst h1'; subst h2; subst h2'; rfl
  induction vs generalizing l with
  | nil =>
    rw [setBindValues]
    constructor
    · intro h; cases h; exact ⟨fun _ => .dn none, by simp, rfl⟩
    · rintro ⟨_, _, rfl⟩; rfl
  | cons v vs ih =>
    rw [setBindValues]
    constructor
    · intro h
      cases hs : setBindValue F.eq l l.kw v with
      | error e => rw [hs] at h; cases h
      | ok r' =>
        rw [hs] at h
        obtain ⟨e, he, hr'⟩ := (setBindValue_iff F l r' v).1 hs
        have hkw : r'.kw = l.kw := by rw [hr']
        have h' : setBindValues F.eq r' r'.kw vs = .ok l' := by rw [hkw]; exact h
        obtain ⟨entry, hen, rfl⟩ := (ih r').1 h'
        rw [hkw] at hen
        refine ⟨fun x => if x = v then e else entry x, ?_, ?_⟩
        · intro x hx
          by_cases hxv : x = v
          · simp only [hxv, if_true]; exact he
          · simp only [hxv, if_false]
            rcases List.mem_cons.1 hx with h | h
            · exact absurd h hxv
            · exact hen x h
        · rw [hkw, List.map_cons, List.foldl_cons, if_pos rfl, hr']
          congr 2
          refine List.map_congr_left fun x hx => ?_
          by_cases hxv : x = v
          · simp only [hxv, if_true]
            subst hxv
            exact det _ _ _ _ (hen x hx) he
          · simp only [hxv, if_false]
    · rintro ⟨entry, hen, rfl⟩
      have hs := (setBindValue_iff F l _ v).2 ⟨entry v, hen v (by simp), rfl⟩
      rw [hs]
      exact (ih ⟨l.kw, addNew (fun a b => F.eq a.string b.string) l.entries (entry v)⟩).2
        ⟨entry, fun x hx => hen x (by simp [hx]), rfl⟩

/-- **C84.** Names: at least one text, the first one with three bytes or more inside its
quotation marks; every text is taken as a name or an address, and the list holds these, each
once and in their order.  The list has the keyword of the rule. -/
theorem C84_names (F : EqualFold) (env : Env) (hF : env.eq = F.eq) (r : BRule) (k : BKw) (hk : demandsB k = .names)
    (style : Int) (vs : List Str) (h : RawBind r k style vs) (x : BExpr) :
    ValueReadB env r x ↔ (∃ v vs' t, vs = v :: vs' ∧ Inside v t ∧ 3 ≤ t.length) ∧
      ∃ entry : Str → BEntry, (∀ v ∈ vs, TakenEntry (bkwConst k) v (entry v)) ∧
        x = .dns ⟨bkwConst k, firsts (sameText F) (vs.map entry)⟩ := by
  rw [valueReadB_iff h]
  have hk' : k = .userdn ∨ k = .roledn ∨ k = .groupdn := by
    cases k <;> first | (exact absurd hk (by decide)) | simp
  have hlist : ugrList F.eq (bkwConst k) = ⟨bkwConst k, []⟩ := by
    rcases hk' with rfl | rfl | rfl <;> rfl
  have hval : ValueOf env k vs x ↔ ∃ d, assertBindUGRDN F.eq vs (bkwConst k) = .ok d ∧ x = .dns d := by
    constructor
    · intro hv
      have ht := C84_type env r k style vs h x ((valueReadB_iff h x).2 hv)
      rw [hk] at ht
      cases x <;> simp only [typeOfB, Option.some.injEq] at ht <;> try (cases ht)
      rw [← hF]; exact ⟨_, hv.2, rfl⟩
    · rintro ⟨d, hd, rfl⟩
      rw [← hF] at hd
      exact ⟨hk', hd⟩
  rw [hval]
  match vs with
  | [] =>
    simp only [assertBindUGRDN]
    constructor
    · rintro ⟨d, hd, _⟩; cases hd
    · rintro ⟨⟨v, vs', t, he, _⟩, _⟩; cases he
  | v :: vs =>
    rw [assertBindUGRDN, hlist]
    by_cases hl : (unquote (condenseWHSP v)).length < 3
    · rw [if_pos hl]
      constructor
      · rintro ⟨d, hd, _⟩; cases hd
      · rintro ⟨⟨v', vs', t, he, ht, h3⟩, _⟩
        cases he
        rw [inside_iff] at ht
        subst ht
        exact absurd hl (Nat.not_lt.2 h3)
    · rw [if_neg hl]
      have := fun d => setBindValues_iff F (v :: vs) ⟨bkwConst k, []⟩ d
      simp only at this
      simp only [this]
      constructor
      · rintro ⟨d, ⟨entry, h1, rfl⟩, rfl⟩
        refine ⟨⟨v, vs, _, rfl, inside_of v, Nat.not_lt.1 hl⟩, entry, h1, ?_⟩
        rw [← foldl_addNew (sameText F) (fun a b c => F.trans _ _ _)]; rfl
      · rintro ⟨_, entry, h1, rfl⟩
        refine ⟨_, ⟨entry, h1, rfl⟩, ?_⟩
        rw [← foldl_addNew (sameText F) (fun a b c => F.trans _ _ _)]; rfl

example : TakenEntry BindUDN b!"ldap:///uid=jesse,ou=people"
    (.dn (some ⟨BindUDN, some b!"uid=jesse,ou=people"⟩)) :=
  Or.inr ⟨fun h => absurd h.2 (by decide), _, b!"uid=jesse,ou=people", b!"uid=jesse,ou=people",
    condenses_of _, chop_iff.1 (by decide +kernel), ⟨by decide, Or.inl (by decide)⟩, by decide, chop_iff.1 (by decide), rfl⟩

/-- **C84.** For all keywords but the three with names, only a single text is read. -/
theorem C84_single (env : Env) (r : BRule) (k : BKw) (hk : demandsB k ≠ .names) (style : Int) (vs : List Str)
    (h : RawBind r k style vs) (x : BExpr) (hx : ValueReadB env r x) : ∃ v, vs = [v] := by
  rw [valueReadB_iff h] at hx
  match vs, hx with
  | [v], _ => exact ⟨v, rfl⟩
  | [], hx =>
    cases x <;> simp only [ValueOf] at hx
    · rcases hx.1 with rfl | rfl | rfl <;> exact absurd rfl hk
    · obtain ⟨_, u, _, hx⟩ := hx; cases hx
    all_goals (obtain ⟨-, hx⟩ := hx; cases hx)
  | _ :: _ :: _, hx =>
    cases x <;> simp only [ValueOf] at hx
    · rcases hx.1 with rfl | rfl | rfl <;> exact absurd rfl hk
    · obtain ⟨_, u, _, hx⟩ := hx; cases hx
    all_goals (obtain ⟨-, hx⟩ := hx; cases hx)

theorem attribute_read (env : Env) (r : BRule) (k : BKw) (hk : demandsB k = .attribute) (style : Int) (v t : Str)
    (h : RawBind r k style [v]) (ht : Inside v t) (x : BExpr) :
    ValueReadB env r x ↔
      ((∃ w, t = scheme ++ w) ∧ ∃ u, Uri.parseLDAPURI env.eq t [bkwConst k] = .ok u ∧ x = .uri (some u)) ∨
      ((∃ w, t = b!"parent[" ++ w) ∧ ∃ i, parseInheritance t = .ok i ∧ x = .inh i) ∨
      ((∀ w, t ≠ scheme ++ w) ∧ (∀ w, t ≠ b!"parent[" ++ w) ∧
        ∃ a, parseATBTV t [some (bkwConst k)] = .ok a ∧ x = .pair a) := by
  rw [valueReadB_iff h]
  have hk' : k = .userattr ∨ k = .groupattr := by cases k <;> first | (exact absurd hk (by decide)) | simp
  rw [← ofUGAttr_cases env k hk' [v] x]
  simp only [assertBindUGAttr]
  rw [inside_iff] at ht
  rw [ht]
  have hexcl : ∀ w w' : Str, scheme ++ w ≠ b!"parent[" ++ w' := by
    intro w w' he
    have hh : (scheme ++ w).head? = (b!"parent[" ++ w').head? := congrArg List.head? he
    have e1 : (scheme ++ w).head? = some 108 := rfl
    have e2 : (b!"parent[" ++ w').head? = some 112 := rfl
    rw [e1, e2] at hh
    exact absurd hh (by decide)
  by_cases h1 : Str.hasPrefix t LocalScheme = true
  · rw [if_pos h1]
    obtain ⟨w, hw⟩ := Str.hasPrefix_iff.1 h1
    constructor
    · rintro ⟨a, ha, rfl⟩
      obtain ⟨u, hu, rfl⟩ := map_ok_iff.1 ha
      exact Or.inl ⟨⟨w, hw⟩, u, ofExcept_ok_iff.1 hu, rfl⟩
    · rintro (⟨_, u, hu, rfl⟩ | ⟨⟨w', hw'⟩, _⟩ | ⟨hn, _⟩)
      · exact ⟨.uri u, map_ok_iff.2 ⟨u, ofExcept_ok_iff.2 hu, rfl⟩, rfl⟩
      · exact absurd (hw.symm.trans hw') (hexcl w w')
      · exact absurd hw (hn w)
  · rw [if_neg h1]
    have hn1 : ∀ w, t ≠ scheme ++ w := fun w hw => h1 (Str.hasPrefix_iff.2 ⟨w, hw⟩)
    by_cases h2 : Str.hasPrefix t b!"parent[" = true
    · rw [if_pos h2]
      obtain ⟨w, hw⟩ := Str.hasPrefix_iff.1 h2
      constructor
      · rintro ⟨a, ha, rfl⟩
        obtain ⟨u, hu, rfl⟩ := map_ok_iff.1 ha
        exact Or.inr (Or.inl ⟨⟨w, hw⟩, u, hu, rfl⟩)
      · rintro (⟨⟨w', hw'⟩, _⟩ | ⟨_, i, hi, rfl⟩ | ⟨_, hn, _⟩)
        · exact absurd hw' (hn1 w')
        · exact ⟨.inh i, map_ok_iff.2 ⟨i, hi, rfl⟩, rfl⟩
        · exact absurd hw (hn w)
    · rw [if_neg h2]
      have hn2 : ∀ w, t ≠ b!"parent[" ++ w := fun w hw => h2 (Str.hasPrefix_iff.2 ⟨w, hw⟩)
      constructor
      · rintro ⟨a, ha, rfl⟩
        obtain ⟨u, hu, rfl⟩ := map_ok_iff.1 ha
        exact Or.inr (Or.inr ⟨hn1, hn2, u, ofExcept_ok_iff.1 hu, rfl⟩)
      · rintro (⟨⟨w', hw'⟩, _⟩ | ⟨⟨w', hw'⟩, _⟩ | ⟨_, _, a, ha, rfl⟩)
        · exact absurd hw' (hn1 w')
        · exact absurd hw' (hn2 w')
        · exact ⟨.pair a, map_ok_iff.2 ⟨a, ofExcept_ok_iff.2 ha, rfl⟩, rfl⟩

/-- **C84.** Attributes: one text, which with the local scheme in front is the text of an
address, with `parent[` in front the text of an inheritance, and otherwise that of an attribute
with a bind type or value; addresses and pairs have the keyword of the rule. -/
theorem C84_attribute (F : EqualFold) (env : Env) (hF : env.eq = F.eq) (r : BRule) (k : BKw)
    (hk : demandsB k = .attribute) (style : Int) (v t : Str) (h : RawBind r k style [v]) (ht : Inside v t) (x : BExpr) :
    ValueReadB env r x ↔
      (∃ u, Uri.TextOf (bkwConst k) t u ∧ x = .uri (some u)) ∨
      ((∃ w, t = b!"parent[" ++ w) ∧ ∃ i, Uri.InheritText t i ∧ x = .inh i) ∨
      ((∀ w, t ≠ scheme ++ w) ∧ (∀ w, t ≠ b!"parent[" ++ w) ∧ ∃ a, Uri.PairText (bkwConst k) t a ∧ x = .pair a) := by
  rw [attribute_read env r k hk style v t h ht x, hF]
  have hk' : k = .userattr ∨ k = .groupattr := by cases k <;> first | (exact absurd hk (by decide)) | simp
  have e1 : Uri.pairKey [bkwConst k] = bkwConst k := by rcases hk' with rfl | rfl <;> decide
  have e2 : (if [some (bkwConst k)].head? = some (some BindGAT) then BindGAT else BindUAT) = bkwConst k := by
    rcases hk' with rfl | rfl <;> decide
  simp only [Uri.C89_exact_partial, e1, Uri.C09_exact, Uri.C29_exact, e2]
  have hs : ∀ u, Uri.TextOf (bkwConst k) t u → ∃ w, t = scheme ++ w := by
    rintro u ⟨n, parts, he, -⟩; exact ⟨_, he⟩
  constructor
  · rintro (⟨-, h⟩ | h)
    · exact Or.inl h
    · exact Or.inr h
  · rintro (⟨u, h1, h2⟩ | h)
    · exact Or.inl ⟨hs u h1, u, h1, h2⟩
    · exact Or.inr h

/-- **C84.** Addresses of hosts: one text, a list of distinct acceptable addresses joined by
commas. -/
theorem C84_address (env : Env) (r : BRule) (style : Int) (vs : List Str) (h : RawBind r .ip style vs) (x : BExpr) :
    ValueReadB env r x ↔ ∃ v t, vs = [v] ∧ Inside v t ∧ (Str.split1 44 t).Nodup ∧
      (∀ a ∈ Str.split1 44 t, AddressLike a) ∧ x = .ip (some (Str.split1 44 t)) := by
  constructor
  · intro hx
    obtain ⟨v, rfl⟩ := C84_single env r .ip (by decide) style vs h x hx
    rw [valueReadB_iff h] at hx
    cases x <;> simp only [ValueOf, reduceCtorEq, false_and, or_self] at hx
    obtain ⟨t, l, ht, rfl, h1, h2, rfl⟩ := (Net.C23_bind_value v _).1 hx.2
    exact ⟨v, t, rfl, ht, h1, h2, rfl⟩
  · rintro ⟨v, t, rfl, ht, h1, h2, rfl⟩
    rw [valueReadB_iff h]
    exact ⟨rfl, (Net.C23_bind_value v _).2 ⟨t, _, ht, rfl, h1, h2, rfl⟩⟩

/-- **C84.** Authentication methods: one text, the name of the method in any letter case,
whatever the order of the tables. -/
theorem C84_method (env : Env) (hn : env.names.Perm Sec.authNames) (hn' : env.names'.Perm Sec.authNames)
    (r : BRule) (style : Int) (vs : List Str) (h : RawBind r .authmethod style vs) (x : BExpr) :
    ValueReadB env r x ↔ ∃ v t, ∃ a : Auth, vs = [v] ∧ Inside v t ∧ Str.eqFold a.name t = true ∧
      x = .am (Sec.authConst a) := by
  constructor
  · intro hx
    obtain ⟨v, rfl⟩ := C84_single env r .authmethod (by decide) style vs h x hx
    rw [valueReadB_iff h] at hx
    cases x <;> simp only [ValueOf, reduceCtorEq, false_and, or_self] at hx
    obtain ⟨t, a, ht, h1, rfl⟩ := (Sec.C28_bind_value _ _ hn hn' _ v _).1 hx.2
    exact ⟨v, t, a, rfl, ht, h1, rfl⟩
  · rintro ⟨v, t, a, rfl, ht, h1, rfl⟩
    rw [valueReadB_iff h]
    exact ⟨rfl, (Sec.C28_bind_value _ _ hn hn' _ v _).2 ⟨t, a, ht, h1, rfl⟩⟩

/-- **C84.** Host names: one text of at most 63 bytes, two to fifteen labels joined by dots,
which are the value; and the text `<invalid_fqdn_or_label>`, which gives the empty name (see
C58). -/
theorem C84_host (env : Env) (r : BRule) (style : Int) (vs : List Str) (h : RawBind r .dns style vs) (x : BExpr) :
    ValueReadB env r x ↔ ∃ v t, vs = [v] ∧ Inside v t ∧
      ((t = b!"<invalid_fqdn_or_label>" ∧ x = .fqdn (some [])) ∨
       (2 ≤ (Str.split1 46 t).length ∧ (Str.split1 46 t).length ≤ 15 ∧ t.length ≤ 63 ∧
        (∀ p ∈ Str.split1 46 t, IsLabel LatinLetter p) ∧ x = .fqdn (some (Str.split1 46 t)))) := by
  have bad : ∀ v, Inside v b!"<invalid_fqdn_or_label>" → Net.assertBindDNS [v] = .ok (some []) := by
    intro v hv
    rw [inside_iff] at hv
    simp only [Net.assertBindDNS, hv]
    rw [if_pos (by decide +kernel)]
    have : Net.DNS [b!"<invalid_fqdn_or_label>"] = some [] := by decide +kernel
    rw [this]
  constructor
  · intro hx
    obtain ⟨v, rfl⟩ := C84_single env r .dns (by decide) style vs h x hx
    rw [valueReadB_iff h] at hx
    cases x <;> simp only [ValueOf, reduceCtorEq, false_and, or_self] at hx
    refine ⟨v, _, rfl, inside_of v, ?_⟩
    by_cases hb : unquote (condenseWHSP v) = b!"<invalid_fqdn_or_label>"
    · have h2 := hx.2
      rw [bad v (hb ▸ inside_of v)] at h2
      cases h2
      exact Or.inl ⟨hb, rfl⟩
    · obtain ⟨h1, h2, h3, h4, rfl⟩ := (Net.C58_bind_value_partial v _ _ (inside_of v) hb).1 hx.2
      exact Or.inr ⟨h1, h2, h3, h4, rfl⟩
  · rintro ⟨v, t, rfl, ht, (⟨rfl, rfl⟩ | ⟨h1, h2, h3, h4, rfl⟩)⟩
    · rw [valueReadB_iff h]
      exact ⟨rfl, bad v ht⟩
    · rw [valueReadB_iff h]
      refine ⟨rfl, (Net.C58_bind_value_partial v _ t ht ?_).2 ⟨h1, h2, h3, h4, rfl⟩⟩
      rintro rfl
      exact absurd h1 (by decide +kernel)

/-- **C84.** Days: one text, a list of names or numbers of days joined by commas, and the
value holds these days and nothing else. -/
theorem C84_days (env : Env) (r : BRule) (style : Int) (vs : List Str) (h : RawBind r .dayofweek style vs) :
    ((∃ x, ValueReadB env r x) ↔ ∃ v t, vs = [v] ∧ Inside v t ∧ ∀ e ∈ Time.entries t, ∃ d : Weekday, d.NamedBy e) ∧
    ∀ v t x, vs = [v] → Inside v t → ValueReadB env r x → ∃ w, x = .dow w ∧ Time.OnlyDays w ∧
      ∀ d : Weekday, Time.holds env.shifty w d = true ↔ ∃ e ∈ Time.entries t, d.NamedBy e := by
  refine ⟨⟨?_, ?_⟩, ?_⟩
  · rintro ⟨x, hx⟩
    rw [valueReadB_iff h] at hx
    cases x <;> simp only [ValueOf, reduceCtorEq, false_and, or_self] at hx
    obtain ⟨v, t, h1, h2, h3, -⟩ := Time.C12_bind_value _ _ _ hx.2
    exact ⟨v, t, h1, h2, h3⟩
  · rintro ⟨v, t, rfl, h2, h3⟩
    obtain ⟨w, hw⟩ := Time.C12_bind_reads env.shifty v t h2 h3
    exact ⟨.dow w, (valueReadB_iff h _).2 ⟨rfl, hw⟩⟩
  · rintro v t x rfl ht hx
    rw [valueReadB_iff h] at hx
    cases x <;> simp only [ValueOf, reduceCtorEq, false_and, or_self] at hx
    obtain ⟨v', t', h1, h2, -, h4, h5⟩ := Time.C12_bind_value _ _ _ hx.2
    cases h1
    rw [inside_iff] at h2 ht
    rw [← h2, ht] at h5
    exact ⟨_, rfl, h4, h5⟩

/-- **C84.** Strength factors: one text, the decimal text of a number up to 256, and the value
prints this number. -/
theorem C84_factor (env : Env) (r : BRule) (style : Int) (vs : List Str) (h : RawBind r .ssf style vs) :
    ((∃ x, ValueReadB env r x) ↔ ∃ v n, vs = [v] ∧ n ≤ 256 ∧ Inside v (Str.ofNat n)) ∧
    ∀ v n x, vs = [v] → Inside v (Str.ofNat n) → ValueReadB env r x →
      ∃ s, x = .ssf s ∧ Sec.string s = Str.ofNat n := by
  refine ⟨⟨?_, ?_⟩, ?_⟩
  · rintro ⟨x, hx⟩
    obtain ⟨v, rfl⟩ := C84_single env r .ssf (by decide) style vs h x hx
    rw [valueReadB_iff h] at hx
    cases x <;> simp only [ValueOf, reduceCtorEq, false_and, or_self] at hx
    simp only [Sec.assertBindSecurityStrengthFactor] at hx
    obtain ⟨-, hx⟩ := hx
    split at hx
    · next he =>
      obtain ⟨n, hn, e, -⟩ := Sec.C26_prints_number (Sec.SSF [.str (unquote (condenseWHSP v))])
      exact ⟨v, n, rfl, hn, (inside_iff _ _).2 (by rw [← e, he])⟩
    · cases hx
  · rintro ⟨v, n, rfl, hn, ht⟩
    rw [inside_iff] at ht
    have e := (Sec.C26_from_text none n).2
    rw [Nat.min_eq_left hn] at e
    exact ⟨.ssf (Sec.SSF [.str (Str.ofNat n)]), (valueReadB_iff h _).2 ⟨rfl, by
      simp only [Sec.assertBindSecurityStrengthFactor, ht, e, if_true]⟩⟩
  · rintro v n x rfl ht hx
    rw [valueReadB_iff h] at hx
    rw [inside_iff] at ht
    cases x <;> simp only [ValueOf, reduceCtorEq, false_and, or_self] at hx
    simp only [Sec.assertBindSecurityStrengthFactor, ht] at hx
    obtain ⟨-, hx⟩ := hx
    split at hx
    · next he => cases hx; exact ⟨_, rfl, he⟩
    · cases hx

/-- **C84.** Times: one text, the four digits of a clock time, and the value prints them. -/
theorem C84_time (env : Env) (r : BRule) (style : Int) (vs : List Str) (h : RawBind r .timeofday style vs) :
    ((∃ x, ValueReadB env r x) ↔ ∃ v t, vs = [v] ∧ Inside v t ∧ IsClock t) ∧
    ∀ v t x, vs = [v] → Inside v t → ValueReadB env r x →
      ∃ c, x = .tod c ∧ Time.TimeOfDay.string c = t := by
  refine ⟨⟨?_, ?_⟩, ?_⟩
  · rintro ⟨x, hx⟩
    obtain ⟨v, rfl⟩ := C84_single env r .timeofday (by decide) style vs h x hx
    rw [valueReadB_iff h] at hx
    cases x <;> simp only [ValueOf, reduceCtorEq, false_and, or_self] at hx
    obtain ⟨v', t, h1, h2, -, h4⟩ := Time.C14_accepts_only_clock _ _ hx.2
    refine ⟨v, _, rfl, inside_of v, ?_⟩
    simp only [Time.assertBindTimeOfDay] at hx
    obtain ⟨-, hx⟩ := hx
    split at hx
    · next he => cases hx; rw [← he, h4]; exact h2
    · cases hx
  · rintro ⟨v, t, rfl, ht, hc⟩
    rw [inside_iff] at ht
    have e := (Time.C13_digits_survive t hc none).1
    exact ⟨.tod (Time.ToD [.str t]), (valueReadB_iff h _).2 ⟨rfl, by
      simp only [Time.assertBindTimeOfDay, ht, e, if_true]⟩⟩
  · rintro v t x rfl ht hx
    rw [valueReadB_iff h] at hx
    rw [inside_iff] at ht
    cases x <;> simp only [ValueOf, reduceCtorEq, false_and, or_self] at hx
    simp only [Time.assertBindTimeOfDay, ht] at hx
    obtain ⟨-, hx⟩ := hx
    split at hx
    · next he => cases hx; exact ⟨_, rfl, he⟩
    · cases hx

example : RawBind (rawRule b!"timeofday" Ge' b!"'0730'") .timeofday 0 [b!"'0730'"] ∧
    Inside b!"'0730'" b!"0730" ∧ IsClock b!"0730" :=
  ⟨⟨by decide, rfl⟩, (inside_iff _ _).2 (by decide +kernel), Or.inl ⟨7, 30, by decide, by decide, by decide +kernel⟩⟩

example : RawBind (rawRule b!"ip" Eq' b!"192.168.0.*") .ip 0 [b!"192.168.0.*"] ∧
    ValueReadB plainEnv (rawRule b!"ip" Eq' b!"192.168.0.*") (.ip (some [b!"192.168.0.*"])) := by
  have h : RawBind (rawRule b!"ip" Eq' b!"192.168.0.*") .ip 0 [b!"192.168.0.*"] := ⟨by decide, rfl⟩
  have e : Str.split1 44 (unquote (condenseWHSP b!"192.168.0.*")) = [b!"192.168.0.*"] := by decide +kernel
  refine ⟨h, (C84_address _ _ _ _ h _).2 ⟨_, _, rfl, inside_of _, ?_, ?_, ?_⟩⟩
  · rw [e]; simp
  · rw [e]; intro a ha; rw [List.mem_singleton.1 ha]; decide +kernel
  · rw [e]

/-! ## The value of a condition -/

/-- **C84**, all keywords at once: the texts are read as the value `x` exactly if they are the value
`x` for the keyword of the rule. -/
theorem C84_value (F : EqualFold) (env : Env) (hP : Proper env F) (r : BRule) (k : BKw) (style : Int)
    (vs : List Str) (h : RawBind r k style vs) (x : BExpr) : ValueReadB env r x ↔ BindValue F k vs x := by
  obtain ⟨hF, hn, hn'⟩ := hP
  have single := fun hk => C84_single env r k hk style vs h x
  cases hd : demandsB k with
  | names =>
    rw [C84_names F env hF r k hd style vs h]
    constructor
    · rintro ⟨⟨v, vs', t, rfl, h1, h2⟩, entry, he, rfl⟩
      exact .names hd h1 h2 entry he
    · intro hb
      cases hb with
      | names _ h1 h2 entry he => exact ⟨⟨_, _, _, rfl, h1, h2⟩, entry, he, rfl⟩
      | uri hk | inherit hk | pair hk => rw [hd] at hk; cases hk
      | _ => cases hd
  | «attribute» =>
    constructor
    · intro hx
      obtain ⟨v, rfl⟩ := single (by rw [hd]; decide) hx
      rcases (C84_attribute F env hF r k hd style v _ h (inside_of v) x).1 hx with
        ⟨u, h1, rfl⟩ | ⟨h0, i, h1, rfl⟩ | ⟨h0, h0', a, h1, rfl⟩
      · exact .uri hd (inside_of v) h1
      · exact .inherit hd (inside_of v) h0 h1
      · exact .pair hd (inside_of v) h0 h0' h1
    · intro hb
      cases hb with
      | names hk => rw [hd] at hk; cases hk
      | uri _ hv h1 => exact (C84_attribute F env hF r k hd style _ _ h hv _).2 (Or.inl ⟨_, h1, rfl⟩)
      | inherit _ hv h0 h1 =>
        exact (C84_attribute F env hF r k hd style _ _ h hv _).2 (Or.inr (Or.inl ⟨h0, _, h1, rfl⟩))
      | pair _ hv h0 h0' h1 =>
        exact (C84_attribute F env hF r k hd style _ _ h hv _).2 (Or.inr (Or.inr ⟨h0, h0', _, h1, rfl⟩))
      | _ => cases hd
  | address =>
    obtain rfl : k = .ip := by cases k <;> first | rfl | cases hd
    rw [C84_address env r style vs h]
    constructor
    · rintro ⟨v, t, rfl, h1, h2, h3, rfl⟩; exact .address h1 h2 h3
    · intro hb
      cases hb with
      | address h1 h2 h3 => exact ⟨_, _, rfl, h1, h2, h3, rfl⟩
      | names hk | uri hk | inherit hk | pair hk => cases hk
  | host =>
    obtain rfl : k = .dns := by cases k <;> first | rfl | cases hd
    rw [C84_host env r style vs h]
    constructor
    · rintro ⟨v, t, rfl, h1, (⟨rfl, rfl⟩ | ⟨h2, h3, h4, h5, rfl⟩)⟩
      · exact .noHost h1
      · exact .host h1 h2 h3 h4 h5
    · intro hb
      cases hb with
      | host h1 h2 h3 h4 h5 => exact ⟨_, _, rfl, h1, Or.inr ⟨h2, h3, h4, h5, rfl⟩⟩
      | noHost h1 => exact ⟨_, _, rfl, h1, Or.inl ⟨rfl, rfl⟩⟩
      | names hk | uri hk | inherit hk | pair hk => cases hk
  | days =>
    obtain rfl : k = .dayofweek := by cases k <;> first | rfl | cases hd
    have key : ∀ v t, vs = [v] → Inside v t → ValueReadB env r x →
        ∃ w, x = .dow (some w) ∧ w.getLsbD 0 = false ∧
          (∀ d : Weekday, w.getLsbD d.number.toNat = true ↔ ∃ e ∈ Time.entries t, d.NamedBy e) ∧
          ∀ e ∈ Time.entries t, ∃ d : Weekday, d.NamedBy e := by
      intro v t hvs ht hx
      obtain ⟨w, rfl, h1, h2⟩ := (C84_days env r style vs h).2 v t x hvs ht hx
      obtain ⟨v', t', hvs', ht', h3⟩ := (C84_days env r style vs h).1.1 ⟨_, hx⟩
      rw [hvs] at hvs'
      cases hvs'
      rw [inside_iff] at ht ht'
      rw [ht'.symm.trans ht] at h3
      obtain ⟨e, es, he⟩ := List.exists_cons_of_ne_nil (Str.split1_ne_nil 44 (Str.dropSpaces t))
      have hm : e ∈ Time.entries t := by rw [Time.entries, he]; simp
      obtain ⟨d, hde⟩ := h3 e hm
      cases w with
      | none =>
        have := (h2 d).2 ⟨e, hm, hde⟩
        rw [Time.holds_bit] at this
        simp at this
      | some w =>
        refine ⟨w, rfl, h1 w rfl, fun d => ?_, h3⟩
        rw [← h2 d, Time.holds_bit]
        cases d <;> rfl
    constructor
    · intro hx
      obtain ⟨v, rfl⟩ := single (by rw [hd]; decide) hx
      obtain ⟨w, rfl, h0, h1, h2⟩ := key v _ rfl (inside_of v) hx
      exact .days (inside_of v) h2 h1 h0
    · intro hb
      cases hb with
      | names hk | uri hk | inherit hk | pair hk => cases hk
      | days hv h1 h2 h3 =>
        rename_i v t w
        obtain ⟨x, hx⟩ := (C84_days env r style _ h).1.2 ⟨v, t, rfl, hv, h1⟩
        obtain ⟨w', rfl, h4, h5⟩ := (C84_days env r style _ h).2 v t x rfl hv hx
        have : w' = some w := by
          obtain ⟨e, es, he⟩ := List.exists_cons_of_ne_nil (Str.split1_ne_nil 44 (Str.dropSpaces t))
          have hm : e ∈ Time.entries t := by rw [Time.entries, he]; simp
          obtain ⟨d, hde⟩ := h1 e hm
          cases w' with
          | none =>
            have := (h5 d).2 ⟨e, hm, hde⟩
            rw [Time.holds_bit] at this
            simp at this
          | some w' =>
            congr 1
            have hb : ∀ d : Weekday, w'.getLsbD d.number.toNat = w.getLsbD d.number.toNat := by
              intro d
              have := (h5 d).trans (h2 d).symm
              rw [Time.holds_bit] at this
              have e' : (some w' : Time.DayOfWeek).getD 0#8 = w' := rfl
              have e'' : Time.idx d = d.number.toNat := by cases d <;> rfl
              rw [e', e''] at this
              exact Bool.eq_iff_iff.2 this
            apply BitVec.eq_of_getLsbD_eq
            intro i hi
            match i, hi with
            | 0, _ => rw [h4 w' rfl, h3]
            | 1, _ => exact hb .sun
            | 2, _ => exact hb .mon
            | 3, _ => exact hb .tue
            | 4, _ => exact hb .wed
            | 5, _ => exact hb .thu
            | 6, _ => exact hb .fri
            | 7, _ => exact hb .sat
            | i + 8, hi => omega
        rw [← this]; exact hx
  | clock =>
    obtain rfl : k = .timeofday := by cases k <;> first | rfl | cases hd
    have hval : ∀ h' m, Clock h' m → Time.ToD [.str (clockText h' m)] = some (Time.putUint16 (100 * h' + m)) := by
      rintro h' m (⟨h1, h2⟩ | ⟨rfl, rfl⟩)
      · simp only [Time.ToD, Time.assertToD, Time.assertStr_clock h1 h2]
        rw [Nat.mul_comm]
      · decide +kernel
    have hclock : ∀ h' m, Clock h' m → IsClock (clockText h' m) := by
      rintro h' m (⟨h1, h2⟩ | ⟨rfl, rfl⟩)
      · exact Or.inl ⟨_, _, h1, h2, rfl⟩
      · exact Or.inr rfl
    have hread : ∀ v h' m, vs = [v] → Clock h' m → Inside v (clockText h' m) →
        ValueReadB env r (.tod (some (Time.putUint16 (100 * h' + m)))) := by
      intro v h' m hvs hc hv
      rw [inside_iff] at hv
      rw [valueReadB_iff h, hvs]
      refine ⟨rfl, ?_⟩
      have := (Time.C13_digits_survive _ (hclock h' m hc) none).1
      simp only [Time.assertBindTimeOfDay, hv, this, if_true]
      rw [hval h' m hc]
    have hput : ∀ n, n < 65536 → (Time.putUint16 n).1.toNat * 256 + (Time.putUint16 n).2.toNat = n :=
      fun n hn => Time.uint16_round hn
    constructor
    · intro hx
      obtain ⟨v, t, rfl, hv, hc⟩ := (C84_time env r style vs h).1.1 ⟨x, hx⟩
      obtain ⟨h', m, hc', rfl⟩ : ∃ h' m, Clock h' m ∧ t = clockText h' m := by
        rcases hc with ⟨h', m, h1, h2, rfl⟩ | rfl
        · exact ⟨_, _, Or.inl ⟨h1, h2⟩, rfl⟩
        · exact ⟨24, 0, Or.inr ⟨rfl, rfl⟩, rfl⟩
      have h2 := hread v h' m rfl hc' hv
      have : x = .tod (some (Time.putUint16 (100 * h' + m))) := by
        rw [valueReadB_iff h] at hx h2
        cases x <;> simp only [ValueOf, reduceCtorEq, false_and, or_self] at hx
        have := hx.2.symm.trans h2.2
        cases this; rfl
      rw [this]
      refine .time hc' hv (hput _ ?_)
      rcases hc' with ⟨h1, h2⟩ | ⟨rfl, rfl⟩ <;> omega
    · intro hb
      cases hb with
      | names hk | uri hk | inherit hk | pair hk => cases hk
      | time hc hv hab =>
        rename_i v h' m a b
        have h2 := hread v h' m rfl hc hv
        have : (a, b) = Time.putUint16 (100 * h' + m) := by
          have hp := hput (100 * h' + m) (by rcases hc with ⟨h1, h2⟩ | ⟨rfl, rfl⟩ <;> omega)
          rw [← hab] at hp ⊢
          generalize Time.putUint16 (a.toNat * 256 + b.toNat) = q at hp
          obtain ⟨c, d⟩ := q
          have ha := a.toNat_lt; have hb := b.toNat_lt; have hc := c.toNat_lt; have hd := d.toNat_lt
          simp only at hp
          have e1 : a = c := UInt8.toNat_inj.1 (by omega)
          have e2 : b = d := UInt8.toNat_inj.1 (by omega)
          rw [e1, e2]
        rw [this]; exact h2
  | method =>
    obtain rfl : k = .authmethod := by cases k <;> first | rfl | cases hd
    rw [C84_method env hn hn' r style vs h]
    constructor
    · rintro ⟨v, t, a, rfl, h1, h2, rfl⟩; exact .method h1 h2
    · intro hb
      cases hb with
      | method h1 h2 => exact ⟨_, _, _, rfl, h1, h2, rfl⟩
      | names hk | uri hk | inherit hk | pair hk => cases hk
  | strength =>
    obtain rfl : k = .ssf := by cases k <;> first | rfl | cases hd
    have h0 : Str.ofNat 0 = b!"0" := by decide +kernel
    have hmade : ∀ s, ValueReadB env r (.ssf s) → ∃ o, s = some o := by
      intro s hs
      obtain ⟨v, n, rfl, -⟩ := (C84_factor env r style vs h).1.1 ⟨_, hs⟩
      rw [valueReadB_iff h] at hs
      have hs := hs.2
      simp only [Sec.assertBindSecurityStrengthFactor] at hs
      split at hs
      · cases hs; exact ⟨_, rfl⟩
      · cases hs
    have inj : ∀ n m, n ≤ 256 → m ≤ 256 → Str.ofNat n = Str.ofNat m → n = m := by
      intro n m hn hm he
      have e := congrArg Str.atoi he
      rw [Str.atoi_ofNat n (by omega), Str.atoi_ofNat m (by omega)] at e
      simp only [Prod.mk.injEq] at e
      omega
    have key : ∀ v n, n ≤ 256 → vs = [v] → Inside v (Str.ofNat n) → ∀ x, ValueReadB env r x →
        (n = 0 ∧ x = .ssf (some none)) ∨ ∃ b : Byte, n = b.toNat + 1 ∧ x = .ssf (some (some b)) := by
      intro v n hn hvs hv x hx
      obtain ⟨s, rfl, h2⟩ := (C84_factor env r style vs h).2 v n x hvs hv hx
      obtain ⟨o, rfl⟩ := hmade s hx
      cases o with
      | none =>
        have : Str.ofNat n = Str.ofNat 0 := by rw [← h2]; decide +kernel
        exact Or.inl ⟨inj _ _ hn (by omega) this, rfl⟩
      | some b =>
        have : Str.ofNat n = Str.ofNat (b.toNat + 1) := by rw [← h2]; rfl
        exact Or.inr ⟨b, inj _ _ hn (by have := b.toNat_lt; omega) this, rfl⟩
    constructor
    · intro hx
      obtain ⟨v, n, rfl, hn, hv⟩ := (C84_factor env r style vs h).1.1 ⟨x, hx⟩
      rcases key v n hn rfl hv x hx with ⟨rfl, rfl⟩ | ⟨b, rfl, rfl⟩
      · exact .noFactor (h0 ▸ hv)
      · exact .factor hv
    · intro hb
      cases hb with
      | names hk | uri hk | inherit hk | pair hk => cases hk
      | noFactor hv =>
        rename_i v
        rw [← h0] at hv
        obtain ⟨x, hx⟩ := (C84_factor env r style _ h).1.2 ⟨v, 0, rfl, by omega, hv⟩
        rcases key v 0 (by omega) rfl hv x hx with ⟨_, rfl⟩ | ⟨b, hb, _⟩
        · exact hx
        · omega
      | factor hv =>
        rename_i v b
        obtain ⟨x, hx⟩ := (C84_factor env r style _ h).1.2 ⟨v, _, rfl, by have := b.toNat_lt; omega, hv⟩
        rcases key v _ (by have := b.toNat_lt; omega) rfl hv x hx with ⟨hb, _⟩ | ⟨c, hc, rfl⟩
        · omega
        · have : b = c := UInt8.toNat_inj.1 (by omega)
          rw [this]; exact hx

theorem plain_proper : Proper plainEnv EqualFold.ref := ⟨rfl, .refl _, .refl _⟩

example : BindValue EqualFold.ref .ssf [b!"'71'"] (.ssf (some (some 70))) :=
  .factor ((inside_iff _ _).2 (by decide +kernel))

example : BindValue EqualFold.ref .timeofday [b!"\"1830\""] (.tod (some (7, 38))) :=
  .time (h := 18) (m := 30) (Or.inl ⟨by omega, by omega⟩) ((inside_iff _ _).2 (by decide +kernel)) (by decide)

theorem reads_as {F : EqualFold} {env : Env} (hP : Proper env F) {r r' : BRule} (h : Reads env r r') :
    ReadAsB F r r' := by
  obtain ⟨h1, h2, ⟨k, hk⟩, -⟩ := reads_known h
  obtain ⟨style, vs, hx⟩ : ∃ style vs, r.ex = .raw style vs := by
    unfold Reads BRule.assertValue at h
    split at h
    · next style vs hx => exact ⟨style, vs, hx⟩
    · cases h
  have hr : RawBind r k style vs := ⟨hk, hx⟩
  exact ⟨k, style, vs, hr, (C84_value F env hP r k style vs hr _).1 ⟨r', h, rfl⟩, h1, h2⟩

theorem readable_iff {F : EqualFold} {env : Env} (hP : Proper env F) (r : BRule) :
    readable env r = true ↔ ReadableB F r := by
  constructor
  · intro h
    obtain ⟨r', h⟩ := agree_readable h
    obtain ⟨k, style, vs, h1, h2, -⟩ := reads_as hP h
    exact ⟨k, style, vs, _, h1, h2⟩
  · rintro ⟨k, style, vs, x, h1, h2⟩
    obtain ⟨r', h, -⟩ := (C84_value F env hP r k style vs h1 x).2 h2
    exact readable_of h

theorem readAsB_readable {F : EqualFold} {r r' : BRule} (h : ReadAsB F r r') : ReadableB F r := by
  obtain ⟨k, style, vs, h1, h2, -⟩ := h
  exact ⟨k, style, vs, _, h1, h2⟩

theorem attrName_no {s : Str} (h : AttrName s) {c : Byte}
    (hc : ¬ (Cased c ∨ Digit c ∨ c = 59 ∨ c = 45 ∨ c = 42)) : c ∉ s := by
  intro hm
  rcases h with h | rfl
  · rcases h.2.2 c hm with h | h | h | h
    · exact hc (.inl h)
    · exact hc (.inr (.inl h))
    · exact hc (.inr (.inr (.inl h)))
    · exact hc (.inr (.inr (.inr (.inl h))))
  · exact hc (.inr (.inr (.inr (.inr (List.mem_singleton.1 hm)))))

theorem good_iff {F : EqualFold} {env : Env} (hP : Proper env F) (r : BRule) :
    Good env r ↔ ReadableB F r ∧ r.core.init = true ∧ r.core.op ≠ 0 ∧ ¬ BareMark r := by
  unfold Good
  rw [readable_iff hP]
  refine and_congr_right fun hr => and_congr_right fun _ => and_congr_right fun _ => ?_
  constructor
  · rintro h ⟨k, style, v, p, hk, hw, hv, hp⟩
    have no : ∀ (c : Byte) (a w : Str), c ≠ 35 → c ∈ a → p ++ b!"#" = a ++ w → c ∈ p := by
      intro c a w hc ha e
      have : c ∈ p ++ b!"#" := by rw [e]; exact List.mem_append_left _ ha
      rcases List.mem_append.1 this with h | h
      · exact h
      · exact absurd (List.mem_singleton.1 h) hc
    obtain ⟨r', h1, h2⟩ := (C84_value F env hP r k style [v] hw _).2
      (.pair hk hv (fun w e => attrName_no hp (by decide) (no 58 scheme w (by decide) (by decide) e))
        (fun w e => attrName_no hp (by decide) (no 91 b!"parent[" w (by decide) (by decide) e)) (.empty hp))
    exact h r' _ h1 h2 rfl
  · intro h r' a h1 h2 hn
    obtain ⟨k, style, vs, hw, hx, -⟩ := reads_as hP h1
    rw [h2] at hx
    cases hx with
    | pair hk hv _ _ hp =>
      cases hp with
      | type _ _ =>
        simp only [Attr.ABTV.string, Attr.Cell.string, Attr.slotString] at hn
        split at hn <;> cases hn
      | value _ _ hq =>
        simp only [Attr.ABTV.string, Attr.Cell.string, Attr.slotString] at hn
        split at hn <;> cases hn
      | empty hp => exact h ⟨k, style, _, _, hk, hw, hv, hp⟩

theorem agree_of {F : EqualFold} {env : Env} (hP : Proper env F) {σ τ : BRule → Bool} (h : AgreeB F σ τ) :
    Agree env σ τ := fun r r' hr => h r r' (reads_as hP hr)

theorem reads_all {F : EqualFold} {env : Env} (hP : Proper env F) {rs rs' : List BRule} (h : ReadsAll env rs rs') :
    ReadAllB F rs rs' := by
  induction h with
  | nil => exact .nil
  | cons h _ ih => exact .cons (reads_as hP h) ih

/-! ## C46 -/

/-- **C46**, the full claim. -/
def MeaningKept : Prop :=
  ∀ (F : EqualFold) (env : Env) (P : Printer) (t : PTree) (c : BCtx), Proper env F → t.Known →
    parseBindRules env P.text t = .ok c → ∀ neg σ τ, AgreeB F σ τ → c.eval neg τ = t.eval neg σ

/-- **C46** does not hold: reading `ssf >= "71" AND dayofweek = "xyz"` succeeds with the
first condition alone, which holds more often. -/
theorem C46_counterexample : ¬ MeaningKept := by
  intro h
  obtain ⟨r', hr, hp⟩ := sample_parse
  have := h EqualFold.ref plainEnv plainPrinter sampleTree _ plain_proper (by
    simp only [sampleTree, PTree.Known, PTree.AllKnown]; decide) hp (fun _ => true) (readable plainEnv)
    (fun _ => true) (fun r r' h => ((readable_iff plain_proper r).2 (readAsB_readable h)).symm)
  have hk : kindOf b!"AND" = some .and := by decide
  have h2 : readable plainEnv (rawRule b!"dayofweek" Eq' b!"xyz") = false := by
    simp [readable, sample_unread]
  simp only [sampleTree, PTree.eval, PTree.evals, kindEval, hk, h2, Word.eval, BCtx.eval, BCtx.evals] at this
  simp at this

/-- **C46**, what holds of every tree: the result means what the tree means without the
entries of each stack from its first unreadable condition on, and its rules are the
readings of these conditions in their order.  (Missing from the full claim: the
conditions that are dropped.) -/
theorem C46_cut_partial (F : EqualFold) (env : Env) (hP : Proper env F) (text : BCtx → Str) (t : PTree)
    (hk : t.Known) (c : BCtx) (h : parseBindRules env text t = .ok c) (ok : BRule → Bool)
    (hok : ∀ r, ok r = true ↔ ReadableB F r) :
    (∀ neg σ τ, AgreeB F σ τ → c.eval neg τ = (t.cut ok).eval neg σ) ∧ ReadAllB F (t.cut ok).conds c.leaves := by
  have e : ok = readable env := funext fun r => Bool.eq_iff_iff.2 ((hok r).trans (readable_iff hP r).symm)
  have := meaning_cut env text t hk c h
  rw [e]
  exact ⟨fun neg σ τ ha => this.1 neg σ τ (agree_of hP ha), reads_all hP this.2⟩

/-- **C46** for trees all of whose conditions can be read: the meaning is kept, and the
rules are the readings of the conditions in their order.  (Missing: trees with an
unreadable condition.) -/
theorem C46_readable_partial (F : EqualFold) (env : Env) (hP : Proper env F) (text : BCtx → Str) (t : PTree)
    (hk : t.Known) (hr : ∀ r ∈ t.conds, ReadableB F r) (c : BCtx) (h : parseBindRules env text t = .ok c) :
    (∀ neg σ τ, AgreeB F σ τ → c.eval neg τ = t.eval neg σ) ∧ ReadAllB F t.conds c.leaves := by
  have := C46_cut_partial F env hP text t hk c h _ (readable_iff hP)
  rwa [cut_readable env t fun r hm => (readable_iff hP r).2 (hr r hm)] at this

/-- **C46**, complement: a tree without empty stacks, all of whose conditions are
complete and readable, is read.  The name of an attribute and the mark `#` with nothing behind it is not;
see C110. -/
theorem C46_succeeds (F : EqualFold) (env : Env) (hP : Proper env F) (P : Printer) (k : Str) (p : Bool)
    (es : List PTree) (hk : (PTree.stack k p es).Known) (hf : (PTree.stack k p es).Filled)
    (hg : ∀ r ∈ (PTree.stack k p es).conds, ReadableB F r ∧ r.core.init = true ∧ r.core.op ≠ 0 ∧ ¬ BareMark r) :
    ∃ c, parseBindRules env P.text (.stack k p es) = .ok c :=
  tree_read env P k p es hk hf fun r hr => (good_iff hP r).2 (hg r hr)

/-- **C46** for one condition: it is read exactly when its texts are a value for its keyword, and
then with this value; keyword, operator and parentheses stay. -/
theorem C46_condition (F : EqualFold) (env : Env) (hP : Proper env F) (r : BRule) :
    (∀ r', r.assertValue env = .ok r' → ReadAsB F r r') ∧
    ∀ k style vs x, RawBind r k style vs → BindValue F k vs x → ∃ r', r.assertValue env = .ok r' ∧ r'.ex = x :=
  ⟨fun _ h => reads_as hP h, fun k style vs x h hx => (C84_value F env hP r k style vs h x).2 hx⟩

example : ∃ c, parseBindRules plainEnv plainPrinter.text nestedTree = .ok c ∧
    ∀ neg σ τ, AgreeB EqualFold.ref σ τ → c.eval neg τ = nestedTree.eval neg σ := by
  obtain ⟨h1, h2, h3⟩ := nested_known
  have h3' := fun r hr => (good_iff plain_proper r).1 (h3 r hr)
  obtain ⟨c, hc⟩ := C46_succeeds _ plainEnv plain_proper plainPrinter _ _ _ h1 h2 h3'
  exact ⟨c, hc, (C46_readable_partial _ _ plain_proper _ _ h1 (fun r hr => (h3' r hr).1) c hc).1⟩

mutual

/-- The tree without the members of stacks that are neither conditions nor stacks. -/
def PTree.strip : PTree → PTree
  | .cond r => .cond r
  | .stack k p es => .stack k p (PTree.stripAll es)
  | .other => .other

/-- The members without the strays. -/
def PTree.stripAll : List PTree → List PTree
  | [] => []
  | .other :: es => PTree.stripAll es
  | .cond r :: es => .cond r :: PTree.stripAll es
  | .stack k p sub :: es => .stack k p (PTree.stripAll sub) :: PTree.stripAll es

end

mutual
theorem convert_strip (env : Env) (text : BCtx → Str) : (t : PTree) → convert env text t.strip = convert env text t
  | .cond r => rfl
  | .other => rfl
  | .stack k p es => by
    rw [PTree.strip, convert, convert]
    cases wordToStack k with
    | none => rfl
    | some w => simp only [convertList_strip env text es []]

theorem convertList_strip (env : Env) (text : BCtx → Str) : (es : List PTree) → (acc : List BCtx) →
    convertList env text acc (PTree.stripAll es) = convertList env text acc es
  | [], acc => by rw [PTree.stripAll]
  | .other :: es, acc => by
    rw [PTree.stripAll, convertList]; exact convertList_strip env text es acc
  | .cond r :: es, acc => by
    rw [PTree.stripAll, convertList, convertList]
    cases r.assertValue env with
    | panic => rfl
    | err => rfl
    | ok r' => exact convertList_strip env text es _
  | .stack k p sub :: es, acc => by
    have h := convert_strip env text (.stack k p sub)
    rw [PTree.strip] at h
    rw [PTree.stripAll, convertList, convertList, h]
    cases convert env text (.stack k p sub) with
    | panic => rfl
    | err => rfl
    | ok x =>
      obtain ⟨c, ok⟩ := x
      cases ok with
      | false => rfl
      | true => exact convertList_strip env text es _
end

/-- **C46**, for trees with strays: members of stacks that are neither conditions nor
stacks have no influence on the result. -/
theorem C46_stray (env : Env) (text : BCtx → Str) (t : PTree) :
    parseBindRules env text t = parseBindRules env text t.strip := by
  rw [parseBindRules, parseBindRules, convert_strip]

example : PTree.strip (.stack b!"and" false [.other, .cond badBindRule, .stack b!"or" true [.other]]) =
    .stack b!"and" false [.cond badBindRule, .stack b!"or" true []] := by
  simp [PTree.strip, PTree.stripAll]

/-! ## C65 -/

/-- **C65**, the full claim: what `ParseBindRule` returns has the value of the texts for its
keyword. -/
def SingleBind : Prop :=
  ∀ (F : EqualFold) (r r' : BRule) (k : BKw) (style : Int) (vs : List Str), RawBind r k style vs →
    parseBindRule r = .ok r' → BindValue F k vs r'.ex

/-- **C65** does not hold: values are not read at all, so that `dayofweek = "xyz"` gives
a rule that passes `Valid`; and so does `ssf = "71"`, with the value of the parser. -/
theorem C65_counterexample : ¬ SingleBind ∧
    (∀ op vs, op ≠ 0 → ∃ r', parseBindRule (rawRule b!"dayofweek" op vs) = .ok r' ∧ r'.valid = true ∧
      ∃ style vs, r'.ex = .raw style vs) := by
  refine ⟨fun h => ?_, fun op vs hop => ⟨_, rfl, ?_, _, _, rfl⟩⟩
  · have := h EqualFold.ref (rawRule b!"dayofweek" Eq' b!"xyz") _ .dayofweek 0 [b!"xyz"] ⟨by decide, rfl⟩ rfl
    cases this
  · simp [rawRule, BRule.valid, BRule.isZero, BRule.condOk, hop, BExpr.isNil]

/-- **C65**, what holds: the rule returned has the keyword and the operator of the text, and
agrees with the rule that reading the value would give in everything but the value, which
stays the texts of the parser.  Missing: reading the value, and the error if it cannot be
read. -/
theorem C65_unread_partial (F : EqualFold) (r : BRule) (k : BKw) (style : Int) (vs : List Str)
    (h : RawBind r k style vs) :
    ∃ s, parseBindRule r = .ok s ∧ s.keyword = bkwConst k ∧ s.core.op = r.core.op ∧ s.ex = .raw style vs ∧
      (∀ r', ReadAsB F r r' → s.core = r'.core ∧ s.paren = r'.paren) ∧ ¬ BindValue F k vs s.ex := by
  refine ⟨r, rfl, (matchBKW_iff _ k).2 h.1, rfl, h.2, ?_, ?_⟩
  · rintro r' ⟨_, _, _, _, _, h1, h2⟩; exact ⟨h1.symm, h2.symm⟩
  · rw [h.2]; intro hb; cases hb

example : RawBind (rawRule b!"SSF" Ge' b!"71") .ssf 0 [b!"71"] := ⟨by decide, rfl⟩

end Verif.Bind
