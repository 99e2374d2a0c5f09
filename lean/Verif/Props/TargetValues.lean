import Verif.Spec.TargetValues
import Verif.Props.Target
import Verif.Props.DN
import Verif.Props.Ops
import Verif.Lemmas.Inside

/-!
# C80: target values are read as their keyword demands; C45 and C63: the rules that are read
-/

namespace Verif.Rules
open Verif Verif.Misc Verif.Attr Verif.DN Verif.DNList Verif.Filter Verif.Spec

/-- The texts of the rule are read as the value `x`. -/
def ValueRead (E : EqualFold) (d : Oid.DotReader) (r : TRule) (x : TExpr) : Prop :=
  (r.assertValue E.eq d.read).2 = true ∧ (r.assertValue E.eq d.read).1.ex = x

theorem valueRead_iff {E : EqualFold} {d : Oid.DotReader} {r : TRule} {k : TKw} {style : Int} {vs : List Str}
    (h : RawRule r k style vs) (x : TExpr) :
    ValueRead E d r x ↔ readTarget E.eq d.read (tkwConst k) vs = .ok x := by
  cases hv : readTarget E.eq d.read (tkwConst k) vs with
  | error u =>
    rw [ValueRead, (assertValue_read h).2 hv]
    simp
  | ok v =>
    rw [ValueRead, (assertValue_read h).1 v hv]
    simp only [true_and]
    rw [(setQuoteStyle_core _ _).2]
    show v = x ↔ _
    simp

theorem map_ok {α β : Type} {e : Except Unit α} {f : α → β} {b : β} :
    e.map f = .ok b ↔ ∃ a, e = .ok a ∧ f a = b := by
  cases e with
  | error => simp [Except.map]
  | ok a => simp [Except.map]

/-- **C80.** The value read for a target rule has the type its keyword demands; a list of object
identifiers or of names has the keyword of the rule. -/
theorem C80_type (E : EqualFold) (d : Oid.DotReader) (r : TRule) (k : TKw) (style : Int) (vs : List Str)
    (h : RawRule r k style vs) (x : TExpr) (hx : ValueRead E d r x) :
    typeOf x = some (demands k) ∧ (∀ o, x = .oids o → o.kw = tkwConst k) ∧ (∀ l, x = .dns l → l.kw = tkwConst k) := by
  rw [valueRead_iff h] at hx
  have dns : ∀ (vs : List Str) (l l' : TDNs) (key : TargetKeyword),
      setTargetValues E.eq l key vs = .ok l' → l'.kw = l.kw := by
    intro vs
    induction vs with
    | nil => intro l l' key h; cases h; rfl
    | cons v vs ih =>
      intro l l' key h
      rw [setTargetValues] at h
      split at h
      · cases h
      · exact (ih _ _ _ h).trans rfl
  have oids : ∀ (key : TargetKeyword), key = TargetCtrl ∨ key = TargetExtOp → ∀ o,
      Oid.assertTargetOID E.eq d.read vs key = .ok o → o.kw = key := by
    intro key hk o ho
    have := Oid.C59_values_partial E d vs hk
    by_cases hg : upToGap (vs.map d.read) = []
    · rw [this.1 hg] at ho; cases ho
    · obtain ⟨os, h1, _⟩ := this.2 hg
      rw [h1] at ho; cases ho; rfl
  cases k with
  | targetscope =>
    obtain ⟨a, _, rfl⟩ := map_ok.1 hx
    exact ⟨rfl, (by intro o e; cases e), (by intro o e; cases e)⟩
  | targetfilter =>
    obtain ⟨a, _, rfl⟩ := map_ok.1 hx
    exact ⟨rfl, (by intro o e; cases e), (by intro o e; cases e)⟩
  | targetattr =>
    obtain ⟨a, _, rfl⟩ := map_ok.1 hx
    exact ⟨rfl, (by intro o e; cases e), (by intro o e; cases e)⟩
  | targattrfilters =>
    obtain ⟨a, _, rfl⟩ := map_ok.1 hx
    exact ⟨rfl, (by intro o e; cases e), (by intro o e; cases e)⟩
  | targetcontrol =>
    obtain ⟨a, ha, rfl⟩ := map_ok.1 hx
    exact ⟨rfl, (by intro o e; cases e; exact oids _ (Or.inl rfl) _ ha), (by intro o e; cases e)⟩
  | extop =>
    obtain ⟨a, ha, rfl⟩ := map_ok.1 hx
    exact ⟨rfl, (by intro o e; cases e; exact oids _ (Or.inr rfl) _ ha), (by intro o e; cases e)⟩
  | target =>
    obtain ⟨a, ha, rfl⟩ := map_ok.1 hx
    refine ⟨rfl, (by intro o e; cases e), ?_⟩
    intro l e
    cases e
    rw [assertTargetTFDN] at ha
    split at ha
    · cases ha
    · exact dns _ _ _ _ ha
  | target_to =>
    obtain ⟨a, ha, rfl⟩ := map_ok.1 hx
    refine ⟨rfl, (by intro o e; cases e), ?_⟩
    intro l e
    cases e
    rw [assertTargetTFDN] at ha
    split at ha
    · cases ha
    · exact dns _ _ _ _ ha
  | target_from =>
    obtain ⟨a, ha, rfl⟩ := map_ok.1 hx
    refine ⟨rfl, (by intro o e; cases e), ?_⟩
    intro l e
    cases e
    rw [assertTargetTFDN] at ha
    split at ha
    · cases ha
    · exact dns _ _ _ _ ha

/-- **C80.** Scopes: exactly one text, and it is a notation of the scope. -/
theorem C80_scope (E : EqualFold) (d : Oid.DotReader) (r : TRule) (style : Int) (vs : List Str)
    (h : RawRule r .targetscope style vs) (x : TExpr) :
    ValueRead E d r x ↔ ∃ v t s, vs = [v] ∧ Inside v t ∧ Str.lower t ∈ Scope.spellings s ∧
      x = .scope (SearchScope.const s) := by
  rw [valueRead_iff h]
  show (SearchScope.assertTargetScope vs).map TExpr.scope = .ok x ↔ _
  rw [map_ok]
  have nonempty : ∀ (s : Scope) (t : Str), Str.lower t ∈ s.spellings → t.length ≠ 0 := by
    intro s t ht h0
    rw [List.length_eq_zero_iff.1 h0] at ht
    revert ht
    cases s <;> decide
  constructor
  · rintro ⟨a, ha, rfl⟩
    match vs, ha with
    | [v], ha =>
      rw [SearchScope.assertTargetScope] at ha
      split at ha
      · cases ha
      · split at ha
        · cases ha
        · next hn =>
          by_cases hs : ∃ k : Scope, Str.lower (unquote (condenseWHSP v)) ∈ k.spellings
          · obtain ⟨s, hs⟩ := hs
            refine ⟨v, _, s, rfl, inside_of v, hs, ?_⟩
            cases ha
            exact congrArg _ (((SearchScope.C21_reader _).1 s).2 hs)
          · exact absurd ((SearchScope.C21_reader _).2.2 fun k hk => hs ⟨k, hk⟩) hn
  · rintro ⟨v, t, s, rfl, ht, hs, rfl⟩
    refine ⟨_, ?_, rfl⟩
    rw [inside_iff] at ht
    subst ht
    have e := ((SearchScope.C21_reader _).1 s).2 hs
    have hn := nonempty s _ hs
    rw [SearchScope.assertTargetScope]
    simp only [e]
    rw [if_neg hn, if_neg (by cases s <;> decide)]

/-- **C80.** Search filters: exactly one text with three bytes or more; the filter holds what is
inside white space and quotation marks. -/
theorem C80_filter (E : EqualFold) (d : Oid.DotReader) (r : TRule) (style : Int) (vs : List Str)
    (h : RawRule r .targetfilter style vs) (x : TExpr) :
    ValueRead E d r x ↔ ∃ v t, vs = [v] ∧ Inside v t ∧ 3 ≤ t.length ∧ x = .filter (some t) := by
  rw [valueRead_iff h]
  show (assertTargetFilter vs).map TExpr.filter = .ok x ↔ _
  rw [map_ok]
  constructor
  · rintro ⟨a, ha, rfl⟩
    match vs, ha with
    | [v], ha =>
      rw [assertTargetFilter] at ha
      split at ha
      · cases ha
      · next hl => cases ha; exact ⟨v, _, rfl, inside_of v, Nat.le_of_not_lt hl, rfl⟩
  · rintro ⟨v, t, rfl, ht, hl, rfl⟩
    refine ⟨_, ?_, rfl⟩
    rw [inside_iff] at ht
    subst ht
    rw [assertTargetFilter, if_neg (Nat.not_lt.2 hl)]; rfl

theorem goodName_iff (u : Str) : isInvalidDNSyntax u = false ↔ GoodName u := by
  rw [Bool.eq_false_iff, ne_eq, C36_syntax_partial]
  unfold GoodName
  constructor
  · intro h
    refine ⟨Nat.le_of_not_lt fun hl => h (Or.inl hl), ?_⟩
    by_cases h61 : 61 ∈ u
    · exact Or.inl h61
    · exact Or.inr fun a ha e => h (Or.inr ⟨h61, a, ha, e⟩)
  · rintro ⟨h1, h2⟩ (h | ⟨h3, a, ha, e⟩)
    · omega
    · rcases h2 with h2 | h2
      · exact h3 h2
      · exact h2 a ha e

/-- The keywords with names. -/
def ofNames (k : TKw) : Prop := demands k = .names

/-- **C80.** Names: at least one text, and every text is taken as a name; the list holds these
names, each once and in their order. -/
theorem C80_names (E : EqualFold) (d : Oid.DotReader) (r : TRule) (k : TKw) (hk : ofNames k) (style : Int)
    (vs : List Str) (h : RawRule r k style vs) (x : TExpr) :
    ValueRead E d r x ↔ vs ≠ [] ∧ ∃ name : Str → Str, (∀ v ∈ vs, TakenAs v (name v)) ∧
      x = .dns ⟨tkwConst k, firsts (sameTargetText E) (vs.map fun v => some ⟨tkwConst k, some (name v)⟩)⟩ := by
  rw [valueRead_iff h]
  have hread : readTarget E.eq d.read (tkwConst k) vs = (assertTargetTFDN E.eq vs (tkwConst k)).map .dns := by
    revert hk
    unfold ofNames
    cases k <;> intro hk <;> first | rfl | cases hk
  have hlist : tfdnList (tkwConst k) = ⟨tkwConst k, []⟩ := by
    revert hk
    unfold ofNames
    cases k <;> intro hk <;> first | rfl | cases hk
  have push : ∀ (l : TDNs) (u : Str), l.kw = tkwConst k → u ≠ [] →
      l.push E.eq [.dn (some (newDN u (tkwConst k)))]
        = ⟨l.kw, addNew (sameTargetText E) l.entries (some ⟨tkwConst k, some (chopDNPfx u)⟩)⟩ := by
    intro l u hl hu
    rw [newDN_ne hu]
    have := pushT_entries E.eq [[.dn (some ⟨tkwConst k, some (chopDNPfx u)⟩)]] l
    have hp : pushTargetArg l.kw (.dn (some ⟨tkwConst k, some (chopDNPfx u)⟩)) = some (some ⟨tkwConst k, some (chopDNPfx u)⟩) :=
      (pushTargetArg_iff l.kw _ _).2 (Or.inr ⟨chopDNPfx u, by rw [hl], by rw [hl]⟩)
    simp only [List.foldl_cons, List.foldl_nil, List.flatMap_cons, List.flatMap_nil, List.map_cons, List.map_nil,
      hp, upToGap, List.append_nil] at this
    show TDNs.mk _ _ = TDNs.mk _ _
    congr 1
  have loop : ∀ (vs : List Str) (l l' : TDNs), l.kw = tkwConst k →
      (setTargetValues E.eq l (tkwConst k) vs = .ok l' ↔
        (∀ v ∈ vs, GoodName (chopDNPfx (condenseWHSP v))) ∧
        l' = ⟨tkwConst k, (vs.map fun v => some ⟨tkwConst k, some (chopDNPfx (chopDNPfx (condenseWHSP v)))⟩).foldl
          (addNew (sameTargetText E)) l.entries⟩) := by
    intro vs
    induction vs with
    | nil =>
      intro l l' hl
      rw [setTargetValues]
      constructor
      · intro h; cases h; exact ⟨by simp, by rw [← hl]; rfl⟩
      · rintro ⟨_, rfl⟩; rw [← hl]; rfl
    | cons v vs ih =>
      intro l l' hl
      rw [setTargetValues]
      by_cases hg : GoodName (chopDNPfx (condenseWHSP v))
      · rw [if_neg (by rw [(goodName_iff _).2 hg]; simp)]
        have hne : chopDNPfx (condenseWHSP v) ≠ [] := by
          intro e
          have := hg.1
          rw [e] at this
          simp at this
        rw [push l _ hl hne, ih ⟨l.kw, addNew (sameTargetText E) l.entries
          (some ⟨tkwConst k, some (chopDNPfx (chopDNPfx (condenseWHSP v)))⟩)⟩ l' hl]
        simp only [List.mem_cons, forall_eq_or_imp, hg, true_and, List.map_cons, List.foldl_cons]
      · rw [if_pos (by
          cases hb : isInvalidDNSyntax (chopDNPfx (condenseWHSP v)) with
          | true => rfl
          | false => exact absurd ((goodName_iff _).1 hb) hg)]
        constructor
        · intro h; cases h
        · rintro ⟨h, _⟩; exact absurd (h v (by simp)) hg
  rw [hread, map_ok, assertTargetTFDN, hlist]
  have taken : ∀ v w, TakenAs v w ↔ GoodName (chopDNPfx (condenseWHSP v)) ∧
      chopDNPfx (chopDNPfx (condenseWHSP v)) = w := by
    intro v w
    constructor
    · rintro ⟨c, u, h0, h1, h2, h3⟩
      rw [condenses_iff] at h0
      subst h0
      rw [← chop_iff] at h1 h3
      rw [h1]; exact ⟨h2, h3⟩
    · rintro ⟨h1, h2⟩
      exact ⟨_, _, condenses_of v, chop_iff.1 rfl, h1, chop_iff.1 h2⟩
  constructor
  · rintro ⟨a, ha, rfl⟩
    split at ha
    · cases ha
    · next hl =>
      obtain ⟨h1, h2⟩ := (loop vs _ _ rfl).1 ha
      refine ⟨fun e => hl (by rw [e]; rfl), fun v => chopDNPfx (chopDNPfx (condenseWHSP v)), ?_, ?_⟩
      · exact fun v hv => (taken _ _).2 ⟨h1 v hv, rfl⟩
      · rw [h2, foldl_addNew (sameTargetText E) (fun a b c => E.trans _ _ _)]
  · rintro ⟨hne, name, hn, rfl⟩
    refine ⟨_, ?_, rfl⟩
    rw [if_neg (fun e => hne (List.length_eq_zero_iff.1 e))]
    refine (loop vs _ _ rfl).2 ⟨fun v hv => ((taken _ _).1 (hn v hv)).1, ?_⟩
    rw [foldl_addNew (sameTargetText E) (fun a b c => E.trans _ _ _)]
    congr 2
    refine List.map_congr_left fun v hv => ?_
    rw [((taken _ _).1 (hn v hv)).2]

/-- **C80.** Attributes: the first text has to be an attribute (see C44 for the others). -/
theorem C80_attributes (E : EqualFold) (d : Oid.DotReader) (r : TRule) (style : Int) (vs : List Str)
    (h : RawRule r .targetattr style vs) :
    (∃ x, ValueRead E d r x) ↔ ∃ v vs' t, vs = v :: vs' ∧ Inside v t ∧ AttrName t := by
  have e : ∀ x, ValueRead E d r x ↔ (assertTargetAttributes E.eq vs).map TExpr.attrs = .ok x := fun x => valueRead_iff h x
  constructor
  · rintro ⟨x, hx⟩
    obtain ⟨a, ha, _⟩ := map_ok.1 ((e x).1 hx)
    match vs, ha with
    | v :: vs', ha =>
      refine ⟨v, vs', _, rfl, inside_of v, Classical.byContradiction fun hn => ?_⟩
      rw [(C44_first_partial E v _ vs' (inside_of v)).2.1 hn] at ha
      cases ha
  · rintro ⟨v, vs', t, rfl, ht, hv⟩
    obtain ⟨a, ha, _⟩ := (C44_first_partial E v t vs' ht).1 hv
    exact ⟨_, (e _).2 (map_ok.2 ⟨a, ha, rfl⟩)⟩

/-- **C80.** Object identifiers: the first text has to be one (see C59 for the others). -/
theorem C80_identifiers (E : EqualFold) (d : Oid.DotReader) (r : TRule) (k : TKw) (hk : demands k = .identifiers)
    (style : Int) (vs : List Str) (h : RawRule r k style vs) :
    (∃ x, ValueRead E d r x) ↔ ∃ v vs' t, vs = v :: vs' ∧ d.read v = some t := by
  have hkey : tkwConst k = TargetCtrl ∨ tkwConst k = TargetExtOp := by
    cases k <;> first | exact Or.inl rfl | exact Or.inr rfl | cases hk
  have e : ∀ x, ValueRead E d r x ↔ (Oid.assertTargetOID E.eq d.read vs (tkwConst k)).map TExpr.oids = .ok x := by
    intro x
    rw [valueRead_iff h]
    cases k <;> first | rfl | cases hk
  have hv := Oid.C59_values_partial E d vs hkey
  constructor
  · rintro ⟨x, hx⟩
    obtain ⟨a, ha, _⟩ := map_ok.1 ((e x).1 hx)
    match vs, hv, ha with
    | [], hv, ha => rw [hv.1 rfl] at ha; cases ha
    | v :: vs', hv, ha =>
      cases hr : d.read v with
      | some t => exact ⟨v, vs', t, rfl, hr⟩
      | none =>
        rw [hv.1 (by rw [List.map_cons, hr]; rfl)] at ha; cases ha
  · rintro ⟨v, vs', t, rfl, ht⟩
    obtain ⟨os, h1, _⟩ := hv.2 (by rw [List.map_cons, ht]; simp [upToGap])
    exact ⟨_, (e _).2 (map_ok.2 ⟨_, h1, rfl⟩)⟩

theorem makeAFOs_one (a : AFO) : makeAFOs true [.afo a] = mkAFOs (some a) := by
  show AFOs.mk 44 (stackPush true acceptAFO [] [.afo a]) = AFOs.mk 44 (pushAFO [] a)
  rw [stackPush]
  rcases accept_push [] (.afo a) with ⟨b, e, h2, h3⟩ | h2
  · injection e with e
    subst e
    rw [h2, h3]; rfl
  · rw [h2]
    unfold pushAFO
    unfold acceptAFO AFOs.contains Filter.containsText at h2
    simp at h2
    simp [Filter.containsText, h2]

/-- **C80.** Operations: exactly one text with three bytes or more.  With a comma or a semicolon it
is read as a list, otherwise as one operation if it begins with `add=` or `delete=`, otherwise as
one filter to add (see C40 and C78 for these three). -/
theorem C80_operations (E : EqualFold) (d : Oid.DotReader) (r : TRule) (style : Int) (vs : List Str)
    (h : RawRule r .targattrfilters style vs) (x : TExpr) :
    ValueRead E d r x ↔ ∃ v t l, vs = [v] ∧ Inside v t ∧ 3 ≤ t.length ∧ x = .afos l ∧
      ((44 ∈ t ∧ parseAFOs v 0 = .ok l) ∨
       (44 ∉ t ∧ 59 ∈ t ∧ parseAFOs t 1 = .ok l) ∨
       (44 ∉ t ∧ 59 ∉ t ∧ (∃ delete rest, t = opWord delete ++ rest) ∧
         ∃ a, parseAFO t = .ok a ∧ l = (makeAFOs true [.afo a])) ∨
       (44 ∉ t ∧ 59 ∉ t ∧ (∀ delete rest, t ≠ opWord delete ++ rest) ∧
         ∃ a, parseAttributeFilter t = .ok a ∧ l = (makeAFOs true [.afo (AddOp.afo [.af a])]))) := by
  rw [valueRead_iff h]
  show (assertTargetAttrFilters vs).map TExpr.afos = .ok x ↔ _
  rw [map_ok]
  have pre : ∀ t, hasAFOPrefix t = true ↔ ∃ delete rest, t = opWord delete ++ rest := prefix_word
  simp only [makeAFOs_one]
  constructor
  · rintro ⟨l, hl, rfl⟩
    match vs, hl with
    | [v], hl =>
      rw [assertTargetAttrFilters] at hl
      split at hl
      · cases hl
      · next h3 =>
        refine ⟨v, _, l, rfl, inside_of v, Nat.le_of_not_lt h3, rfl, ?_⟩
        split at hl
        · next hc => exact Or.inl ⟨hc, hl⟩
        · next hc =>
          split at hl
          · next hs => exact Or.inr (Or.inl ⟨hc, hs, hl⟩)
          · next hs =>
            split at hl
            · next hp =>
              obtain ⟨a, ha, e⟩ := map_ok.1 hl
              exact Or.inr (Or.inr (Or.inl ⟨hc, hs, (pre _).1 hp, a, ha, e.symm⟩))
            · next hp =>
              obtain ⟨a, ha, e⟩ := map_ok.1 hl
              exact Or.inr (Or.inr (Or.inr ⟨hc, hs, fun b t e => hp ((pre _).2 ⟨b, t, e⟩), a, ha, e.symm⟩))
  · rintro ⟨v, t, l, rfl, ht, h3, rfl, hl⟩
    refine ⟨l, ?_, rfl⟩
    rw [inside_iff] at ht
    subst ht
    rw [assertTargetAttrFilters]
    rw [if_neg (Nat.not_lt.2 h3)]
    rcases hl with ⟨hc, hl⟩ | ⟨hc, hs, hl⟩ | ⟨hc, hs, hp, a, ha, rfl⟩ | ⟨hc, hs, hp, a, ha, rfl⟩
    · rw [if_pos hc, hl]
    · rw [if_neg hc, if_pos hs, hl]
    · rw [if_neg hc, if_neg hs, if_pos ((pre _).2 hp), ha]; rfl
    · rw [if_neg hc, if_neg hs, if_neg (fun h => by obtain ⟨b, t, e⟩ := (pre _).1 h; exact hp b t e), ha]; rfl

theorem firsts_map {α β : Type} (same : β → β → Bool) (f : α → β) (l : List α) :
    firsts same (l.map f) = (firsts (fun a b => same (f a) (f b)) l).map f := by
  induction l with
  | nil => rfl
  | cons a l ih =>
    simp only [List.map_cons, firsts, ih, List.filter_map, Function.comp_def]

theorem opsValue_iff (v : Str) (l : AFOs) : OpsValue v (unquote (condenseWHSP v)) l ↔
    (44 ∈ unquote (condenseWHSP v) ∧ parseAFOs v 0 = .ok l) ∨
    (44 ∉ unquote (condenseWHSP v) ∧ 59 ∈ unquote (condenseWHSP v) ∧ parseAFOs (unquote (condenseWHSP v)) 1 = .ok l) ∨
    (44 ∉ unquote (condenseWHSP v) ∧ 59 ∉ unquote (condenseWHSP v) ∧
      (∃ delete rest, unquote (condenseWHSP v) = opWord delete ++ rest) ∧
      ∃ a, parseAFO (unquote (condenseWHSP v)) = .ok a ∧ l = (makeAFOs true [.afo a])) ∨
    (44 ∉ unquote (condenseWHSP v) ∧ 59 ∉ unquote (condenseWHSP v) ∧
      (∀ delete rest, unquote (condenseWHSP v) ≠ opWord delete ++ rest) ∧
      ∃ a, parseAttributeFilter (unquote (condenseWHSP v)) = .ok a ∧
        l = (makeAFOs true [.afo (AddOp.afo [.af a])])) := by
  generalize unquote (condenseWHSP v) = t
  have one : ∀ a, makeAFOs true [.afo a] = ⟨44, withEntries [a]⟩ := by
    intro a
    rw [makeAFOs_one]
    show AFOs.mk 44 (pushAFO [] a) = _
    rw [pushAFO_addNew]
    by_cases h : a.entries = [] <;> simp [withEntries, h, addNew]
  unfold OpsValue
  refine or_congr ?_ (or_congr ?_ (or_congr ?_ ?_))
  · rw [C78_list_partial]; rfl
  · rw [C78_list_partial]; rfl
  · refine and_congr_right fun _ => and_congr_right fun _ => and_congr_right fun _ => ?_
    constructor
    · rintro ⟨u, delete, ps, h1, h2, rfl⟩
      exact ⟨_, (C78_read_partial _ _).2 ⟨u, delete, ps, h1, h2, rfl⟩, (one _).symm⟩
    · rintro ⟨a, ha, rfl⟩
      obtain ⟨u, delete, ps, h1, h2, rfl⟩ := (C78_read_partial _ _).1 ha
      exact ⟨u, delete, ps, h1, h2, one _⟩
  · refine and_congr_right fun _ => and_congr_right fun _ => and_congr_right fun _ => ?_
    have afo : ∀ a f, AttrName a → AddOp.afo [.af (some ⟨some a, some f⟩)] = opWith false (withFilter [(a, f)]) := by
      intro a f ha
      have := afo_pairs false [(a, f)] (by simpa using ha)
      have e : firsts samePair (withFilter [(a, f)]) = withFilter [(a, f)] := by
        unfold withFilter
        by_cases h : f = [] <;> simp [h, firsts]
      rw [e] at this
      rw [← this]
      simp [AttributeOperation.afo, AFO.push, opOf, ofPair]
    constructor
    · rintro ⟨a, f, h1, h2, rfl⟩
      exact ⟨_, ((C40_read_partial t _).1).2 ⟨a, f, h1, h2, rfl⟩, by rw [one, afo a f h2]⟩
    · rintro ⟨x, hx, rfl⟩
      obtain ⟨a, f, h1, h2, rfl⟩ := ((C40_read_partial t _).1).1 hx
      exact ⟨a, f, h1, h2, by rw [one, afo a f h2]⟩

/-- **C80**, all keywords together: the texts of a rule are read as a value exactly when they are
this value for its keyword. -/
theorem C80_value (E : EqualFold) (d : Oid.DotReader) (r : TRule) (k : TKw) (style : Int) (vs : List Str)
    (h : RawRule r k style vs) (x : TExpr) : ValueRead E d r x ↔ TargetValue E d k vs x := by
  have ident : ∀ k : TKw, demands k = .identifiers → RawRule r k style vs →
      (ValueRead E d r x ↔ TargetValue E d k vs x) := by
    intro k hk h
    have hkey : tkwConst k = TargetCtrl ∨ tkwConst k = TargetExtOp := by
      cases k <;> first | exact Or.inl rfl | exact Or.inr rfl | cases hk
    have e : ValueRead E d r x ↔ (Oid.assertTargetOID E.eq d.read vs (tkwConst k)).map TExpr.oids = .ok x := by
      rw [valueRead_iff h]
      cases k <;> first | rfl | cases hk
    have hv := Oid.C59_values_partial E d vs hkey
    have val : ∀ os : List Oid.ObjectIdentifier, (∀ o ∈ os, ∃ t, Oid.Set d o (tkwConst k) t) →
        os.map Oid.Entry.oid = (os.map Oid.string).map fun t => Oid.Entry.oid (some ⟨tkwConst k, some t⟩) := by
      intro os h
      rw [List.map_map]
      refine List.map_congr_left fun o ho => ?_
      obtain ⟨t, rfl, h0, _⟩ := h o ho
      simp [Oid.string, Oid.isZero, h0]
    rw [e, map_ok]
    constructor
    · rintro ⟨a, ha, rfl⟩
      by_cases hn : upToGap (vs.map d.read) = []
      · rw [hv.1 hn] at ha; cases ha
      · obtain ⟨os, h1, h2, h3⟩ := hv.2 hn
        rw [h1] at ha
        cases ha
        rw [val os h3, h2]
        exact .oids hk hn
    · intro ht
      cases ht with
      | oids hk hn =>
        obtain ⟨os, h1, h2, h3⟩ := hv.2 hn
        exact ⟨_, h1, by rw [val os h3, h2]⟩
      | names hk' => rw [hk] at hk'; cases hk'
      | _ => cases hk
  have names : ∀ k : TKw, demands k = .names → RawRule r k style vs →
      (ValueRead E d r x ↔ TargetValue E d k vs x) := by
    intro k hk h
    rw [C80_names E d r k hk style vs h]
    have e : ∀ name : Str → Str, firsts (sameTargetText E) (vs.map fun v => some ⟨tkwConst k, some (name v)⟩) =
        (firsts (fun a b => E.eq (scheme ++ a) (scheme ++ b)) (vs.map name)).map
          fun n => (some ⟨tkwConst k, some n⟩ : TargetDN) := by
      intro name
      have := firsts_map (sameTargetText E) (fun n => (some ⟨tkwConst k, some n⟩ : TargetDN)) (vs.map name)
      rw [List.map_map] at this
      exact this
    constructor
    · rintro ⟨hne, name, hn, rfl⟩
      rw [e]
      exact .names hk hne name hn
    · intro ht
      cases ht with
      | names _ hne name hn => exact ⟨hne, name, hn, by rw [e]⟩
      | oids hk' => rw [hk] at hk'; cases hk'
      | _ => cases hk
  cases k with
  | targetscope =>
    rw [C80_scope E d r style vs h]
    constructor
    · rintro ⟨v, t, s, rfl, h1, h2, rfl⟩; exact .scope h1 h2
    · intro ht
      cases ht with
      | scope h1 h2 => exact ⟨_, _, _, rfl, h1, h2, rfl⟩
      | oids hk => cases hk
      | names hk => cases hk
  | targetfilter =>
    rw [C80_filter E d r style vs h]
    constructor
    · rintro ⟨v, t, rfl, h1, h2, rfl⟩; exact .filter h1 h2
    · intro ht
      cases ht with
      | filter h1 h2 => exact ⟨_, _, rfl, h1, h2, rfl⟩
      | oids hk => cases hk
      | names hk => cases hk
  | targetattr =>
    have e : ValueRead E d r x ↔ (assertTargetAttributes E.eq vs).map TExpr.attrs = .ok x := valueRead_iff h x
    rw [e, map_ok]
    constructor
    · rintro ⟨a, ha, rfl⟩
      match vs, ha with
      | v :: vs', ha =>
        by_cases hn : AttrName (unquote (condenseWHSP v))
        · have := attrsLoop E.eq v [] (vs'.length + 1) hn
          rw [assertTargetAttributes] at ha
          have h0 : TAs E.eq [] = ⟨[], []⟩ := rfl
          rw [h0, this] at ha
          cases ha
          exact .attrs (inside_of v) hn
        · rw [(C44_first_partial E v _ vs' (inside_of v)).2.1 hn] at ha
          cases ha
    · intro ht
      cases ht with
      | @attrs v t vs' h1 h2 =>
        rw [inside_iff] at h1
        subst h1
        exact ⟨_, attrsLoop E.eq v [] (vs'.length + 1) h2, rfl⟩
      | oids hk => cases hk
      | names hk => cases hk
  | targattrfilters =>
    rw [C80_operations E d r style vs h]
    constructor
    · rintro ⟨v, t, l, rfl, ht, h3, rfl, hl⟩
      refine .ops ht h3 ?_
      rw [inside_iff] at ht
      subst ht
      exact (opsValue_iff v l).2 hl
    · intro ht
      cases ht with
      | @ops v t l ht h3 hl =>
        refine ⟨v, t, l, rfl, ht, h3, rfl, ?_⟩
        rw [inside_iff] at ht
        subst ht
        exact (opsValue_iff v l).1 hl
      | oids hk => cases hk
      | names hk => cases hk
  | targetcontrol => exact ident _ rfl h
  | extop => exact ident _ rfl h
  | target => exact names _ rfl h
  | target_to => exact names _ rfl h
  | target_from => exact names _ rfl h

example : RawRule (sampleRule b!"TargetFilter" b!"\"(cn=*)\"") .targetfilter 1 [b!"\"(cn=*)\""] ∧
    ValueRead EqualFold.ref Oid.plainReader (sampleRule b!"TargetFilter" b!"\"(cn=*)\"") (.filter (some b!"(cn=*)")) ∧
    TakenAs b!"ldap:///cn=a" b!"cn=a" := by
  have hr : RawRule (sampleRule b!"TargetFilter" b!"\"(cn=*)\"") .targetfilter 1 [b!"\"(cn=*)\""] := ⟨⟨rfl, by decide⟩, rfl⟩
  refine ⟨hr, (C80_filter _ _ _ _ _ hr _).2 ⟨_, _, rfl, inside_of _, by decide +kernel,
    congrArg TExpr.filter (by decide +kernel)⟩, b!"ldap:///cn=a", b!"cn=a", (condenses_iff _ _).2 (by decide +kernel), ?_, ?_, ?_⟩
  · exact Or.inl (by decide +kernel)
  · exact (goodName_iff _).1 (by decide +kernel)
  · exact chop_iff.1 (by decide)

/-! ## C45, C63 -/

/-- `r'` is the rule `r` with the value of its texts. -/
def ReadAs (E : EqualFold) (d : Oid.DotReader) (r r' : TRule) : Prop :=
  ∃ k style vs x, RawRule r k style vs ∧ TargetValue E d k vs x ∧ r'.core = r.core ∧ r'.ex = x

/-- The texts of the rule are no value of its keyword. -/
def Unreadable (E : EqualFold) (d : Oid.DotReader) (r : TRule) : Prop :=
  ∃ k style vs, RawRule r k style vs ∧ ∀ x, ¬ TargetValue E d k vs x

theorem value_iff {E : EqualFold} {d : Oid.DotReader} {r : TRule} {k : TKw} {style : Int} {vs : List Str}
    (h : RawRule r k style vs) (x : TExpr) :
    readTarget E.eq d.read (tkwConst k) vs = .ok x ↔ TargetValue E d k vs x := by
  rw [← C80_value E d r k style vs h, valueRead_iff h]

theorem readBy_iff (E : EqualFold) (d : Oid.DotReader) (r r' : TRule) :
    ReadBy E.eq d.read r r' ↔ ReadAs E d r r' := by
  constructor
  · rintro ⟨k, style, vs, x, h, h', e⟩
    exact ⟨k, style, vs, x, h, (value_iff h x).1 h', e⟩
  · rintro ⟨k, style, vs, x, h, h', e⟩
    exact ⟨k, style, vs, x, h, (value_iff h x).2 h', e⟩

theorem unread_iff (E : EqualFold) (d : Oid.DotReader) (r : TRule) : Unread E.eq d.read r ↔ Unreadable E d r := by
  constructor
  · rintro ⟨k, style, vs, h, h'⟩
    refine ⟨k, style, vs, h, fun x hx => ?_⟩
    rw [(value_iff h x).2 hx] at h'
    cases h'
  · rintro ⟨k, style, vs, h, h'⟩
    refine ⟨k, style, vs, h, ?_⟩
    cases hr : readTarget E.eq d.read (tkwConst k) vs with
    | error u => rfl
    | ok x => exact absurd ((value_iff h x).1 hr) (h' x)

theorem allRel_iff {R R' : TRule → TRule → Prop} (h : ∀ r r', R r r' ↔ R' r r') (l l' : List TRule) :
    AllRel R l l' ↔ AllRel R' l l' := by
  constructor
  · intro hl
    induction hl with
    | nil => exact .nil
    | cons a _ ih => exact .cons ((h _ _).1 a) ih
  · intro hl
    induction hl with
    | nil => exact .nil
    | cons a _ ih => exact .cons ((h _ _).2 a) ih

/-- The rules are those of the first list, in order and with their values. -/
def AllRead (E : EqualFold) (d : Oid.DotReader) : List TRule → List TRule → Prop := AllRel (ReadAs E d)

/-- **C45**, one rule: a readable rule keeps keyword and operator and gets its value; an
unreadable one is reported and left as it is. -/
theorem C45_rule (E : EqualFold) (d : Oid.DotReader) (r : TRule) (hp : Parsed r) :
    (Unreadable E d r → r.assertValue E.eq d.read = (r, false)) ∧
    (¬ Unreadable E d r → (r.assertValue E.eq d.read).2 = true ∧
      ReadAs E d r (r.assertValue E.eq d.read).1) := by
  have := rule_read E.eq d.read r hp
  rw [unread_iff, readBy_iff] at this
  exact this

/-- The claim of C45, for rules the parser made. -/
def ReadRules : Prop :=
  ∀ (E : EqualFold) (d : Oid.DotReader) (rs : List TRule), (∀ r ∈ rs, Parsed r) →
    ((∃ r ∈ rs, Unreadable E d r) → (processTargetRules E.eq d.read rs).2 = false) ∧
    ((∀ r ∈ rs, ¬ Unreadable E d r) → (processTargetRules E.eq d.read rs).2 = true ∧
      AllRead E d rs (processTargetRules E.eq d.read rs).1)

/-- **C45.** Reading a sequence of rules is reading the first rule of each known keyword;
the other rules are left out without an error. -/
theorem C45_kept (E : EqualFold) (d : Oid.DotReader) (rs : List TRule)
    (ps : List (TRule × TKw)) (h : Picks Offers (rs.map TRArg.rule) ps)
    (hp : ∀ r ∈ rs, Parsed r) :
    ((∃ p ∈ firsts sameKey ps, Unreadable E d p.1) → (processTargetRules E.eq d.read rs).2 = false) ∧
    ((∀ p ∈ firsts sameKey ps, ¬ Unreadable E d p.1) → (processTargetRules E.eq d.read rs).2 = true ∧
      AllRead E d ((firsts sameKey ps).map (·.1)) (processTargetRules E.eq d.read rs).1) := by
  have := rules_kept E.eq d.read rs ps h hp
  rw [allRel_iff (readBy_iff E d)] at this
  simp only [unread_iff] at this
  exact this

/-- **C45** when no keyword occurs twice.  Missing: several rules with one keyword, for
which the claim is false. -/
theorem C45_distinct_partial (E : EqualFold) (d : Oid.DotReader) (rs : List TRule) (hp : ∀ r ∈ rs, Parsed r)
    (hd : ∀ (i j : Nat) (a b : TRule) (k : TKw), i < j → rs[i]? = some a → rs[j]? = some b → Has a k → ¬ Has b k) :
    ((∃ r ∈ rs, Unreadable E d r) → (processTargetRules E.eq d.read rs).2 = false) ∧
    ((∀ r ∈ rs, ¬ Unreadable E d r) → (processTargetRules E.eq d.read rs).2 = true ∧
      AllRead E d rs (processTargetRules E.eq d.read rs).1) := by
  have := rules_distinct E d rs hp hd
  rw [allRel_iff (readBy_iff E d)] at this
  simp only [unread_iff] at this
  exact this

theorem empty_unreadable : Unreadable .ref Oid.plainReader (sampleRule b!"targetattr" b!"") :=
  (unread_iff _ _ _).1 ⟨.targetattr, _, _, ⟨⟨rfl, by decide⟩, rfl⟩, by rfl⟩

theorem blarg_unreadable : Unreadable .ref Oid.plainReader (sampleRule b!"targetscope" b!"blarg") :=
  (unread_iff _ _ _).1 ⟨.targetscope, _, _, ⟨⟨rfl, by decide⟩, rfl⟩, by rfl⟩

/-- **C45** fails: a second rule of the same keyword is dropped without being read, here
although it is unreadable. -/
theorem C45_counterexample : ¬ ReadRules := by
  intro h
  have := (h EqualFold.ref Oid.plainReader _ sample_parsed).1
    ⟨sampleRule b!"targetattr" b!"", by simp, empty_unreadable⟩
  exact absurd this (by decide +kernel)

example : (processTargetRules EqualFold.ref.eq Oid.plainReader.read
    [sampleRule b!"TargetAttr" b!"cn", sampleRule b!"targetscope" b!"blarg"]).2 = false := by
  refine (C45_distinct_partial EqualFold.ref Oid.plainReader _ ?_ ?_).1
    ⟨sampleRule b!"targetscope" b!"blarg", by simp, blarg_unreadable⟩
  · intro r hr
    simp at hr
    rcases hr with rfl | rfl
    · exact ⟨_, _, _, sample_attr, rfl⟩
    · exact ⟨.targetscope, _, _, ⟨rfl, by decide⟩, rfl⟩
  · intro i j a b k hij ha hb hka hkb
    have hj : j < 2 := by
      have := (List.getElem?_eq_some_iff.1 hb).1; simpa using this
    have hi0 : i = 0 := by omega
    have hj1 : j = 1 := by omega
    subst hi0; subst hj1
    simp at ha hb; subst ha; subst hb
    have e1 := has_unique sample_attr hka
    have e2 : TKw.targetscope = k := has_unique ⟨rfl, by decide⟩ hkb
    rw [← e1] at e2; cases e2

/-- The claim of C63: reading one rule reports an unreadable value, and otherwise gives the rule
with its value. -/
def SingleRule : Prop :=
  ∀ (E : EqualFold) (d : Oid.DotReader) (r : TRule), Parsed r →
    (Unreadable E d r → (parseTargetRule E.eq d.read r).toOption = none) ∧
    (¬ Unreadable E d r → ∃ r', parseTargetRule E.eq d.read r = .ok r' ∧ ReadAs E d r r')

/-- **C63** fails: `targetscope = "blarg"` is returned without an error, with the
unread value of the parser. -/
theorem C63_counterexample : ¬ SingleRule := by
  intro h
  have := (h EqualFold.ref Oid.plainReader (sampleRule b!"targetscope" b!"blarg")
    ⟨.targetscope, _, _, ⟨rfl, by decide⟩, rfl⟩).1 blarg_unreadable
  simp [parseTargetRule, Except.toOption] at this

/-- **C63**: a readable rule is read.  Missing: unreadable rules, which are returned as
they are without an error. -/
theorem C63_readable_partial (E : EqualFold) (d : Oid.DotReader) (r : TRule) (hp : Parsed r) :
    (¬ Unreadable E d r → ∃ r', parseTargetRule E.eq d.read r = .ok r' ∧ ReadAs E d r r') ∧
    (Unreadable E d r → parseTargetRule E.eq d.read r = .ok r) := by
  have := C45_rule E d r hp
  refine ⟨fun h => ⟨_, rfl, (this.2 h).2⟩, fun h => ?_⟩
  rw [parseTargetRule, this.1 h]

theorem base_value : TargetValue .ref Oid.plainReader .targetscope [b!"base"] (.scope (SearchScope.const .base)) :=
  .scope ((inside_iff _ _).2 (by decide +kernel)) (by decide : Str.lower b!"base" ∈ Scope.base.spellings)

example : ∃ r', parseTargetRule EqualFold.ref.eq Oid.plainReader.read (sampleRule b!"targetscope" b!"base") = .ok r' ∧
    ReadAs .ref Oid.plainReader (sampleRule b!"targetscope" b!"base") r' := by
  refine (C63_readable_partial EqualFold.ref Oid.plainReader _ ⟨_, _, _, sample_scope, rfl⟩).1 ?_
  rintro ⟨k, st, vs, ⟨hk, hv⟩, he⟩
  have := has_unique sample_scope hk; subst this
  cases hv
  exact he _ base_value

end Verif.Rules
