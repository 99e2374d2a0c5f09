import Verif.Spec.Globals
import Verif.Props.Alias
import Verif.Props.DN
import Verif.Props.TargetValues

/-!
# C93: reading depends on the text alone
-/

namespace Verif.Globals
open Verif Verif.Alias Verif.Spec Verif.DN Verif.DNList Verif.Misc

/-- The text a predefined name has in a memory. -/
def textAt (m : Mem bindDN) (v : Nat) : Str := BindDN.string (nameAt m (m.vars v))

theorem invalid_congr (F : EqualFold) {m n : Mem bindDN} (d : Str)
    (h : 61 ∈ d ∨ isDNAlias F.eq m d = isDNAlias F.eq n d) :
    isInvalidDNSyntax F.eq m d = isInvalidDNSyntax F.eq n d := by
  unfold isInvalidDNSyntax
  rcases h with h | h
  · have : Str.containsStr d b!"=" = true := (containsStr1 d 61).2 h
    rw [this]; simp
  · rw [h]

theorem target_congr (F : EqualFold) {m n : Mem bindDN} (k : TargetKeyword) :
    ∀ (vs : List Str) (r : TDNs),
      (∀ v ∈ vs, isInvalidDNSyntax F.eq m (chopDNPfx (condenseWHSP v)) =
        isInvalidDNSyntax F.eq n (chopDNPfx (condenseWHSP v))) →
      setTargetValues F.eq m r k vs = setTargetValues F.eq n r k vs
  | [], _, _ => rfl
  | v :: vs, r, h => by
    rw [setTargetValues, setTargetValues, h v List.mem_cons_self,
      target_congr F k vs _ fun w hw => h w (List.mem_cons_of_mem _ hw)]

theorem bind_congr (F : EqualFold) {m n : Mem bindDN} (k : BindKeyword) :
    ∀ (vs : List Str) (r : BDNs),
      (∀ v ∈ vs, isInvalidDNSyntax F.eq m (chopDNPfx (condenseWHSP v)) =
        isInvalidDNSyntax F.eq n (chopDNPfx (condenseWHSP v))) →
      setBindValues F.eq m r k vs = setBindValues F.eq n r k vs
  | [], _, _ => rfl
  | v :: vs, r, h => by
    have h1 : setBindValue F.eq m r k v = setBindValue F.eq n r k v := by
      unfold setBindValue
      rw [h v List.mem_cons_self]
    rw [setBindValues, setBindValues, h1]
    cases setBindValue F.eq n r k v with
    | error _ => rfl
    | ok r' => exact bind_congr F k vs r' fun w hw => h w (List.mem_cons_of_mem _ hw)

theorem alike_of (F : EqualFold) {m n : Mem bindDN} (values : List Str)
    (h : ∀ v ∈ values, isInvalidDNSyntax F.eq m (chopDNPfx (condenseWHSP v)) =
      isInvalidDNSyntax F.eq n (chopDNPfx (condenseWHSP v))) : ReadAlike F m n values := by
  constructor
  · intro k
    cases values with
    | nil => rfl
    | cons v vs =>
      unfold assertBindUGRDN
      rw [bind_congr F k (v :: vs) _ h]
  · intro k
    unfold assertTargetTFDN
    rw [target_congr F k values _ h]

theorem start_names :
    [0, 1, 2, 3].map (fun v => nameAt start (start.vars v)) = DN.aliases := by decide +kernel

theorem eq_ascii (F : EqualFold) (a b : Str) (h : Str.IsAscii b) : F.eq a b = Str.eqFold a b := by
  have h1 := F.ascii a b h
  have h2 := EqualFold.ref.ascii a b h
  exact Bool.eq_iff_iff.2 (h1.trans h2.symm)

theorem start_alias (F : EqualFold) (x : Str) : isDNAlias F.eq start x = DN.isDNAlias x := by
  unfold isDNAlias DN.isDNAlias
  rw [← start_names, List.any_map]
  simp only [List.any_cons, List.any_nil, Function.comp]
  rw [eq_ascii F x _ (by decide +kernel), eq_ascii F x _ (by decide +kernel),
    eq_ascii F x _ (by decide +kernel), eq_ascii F x _ (by decide +kernel)]

theorem start_invalid (F : EqualFold) (x : Str) : isInvalidDNSyntax F.eq start x = DN.isInvalidDNSyntax x := by
  unfold isInvalidDNSyntax DN.isInvalidDNSyntax
  rw [start_alias]

theorem start_target (F : EqualFold) (k : TargetKeyword) : ∀ (vs : List Str) (r : TDNs),
    setTargetValues F.eq start r k vs = DNList.setTargetValues F.eq r k vs
  | [], _ => rfl
  | v :: vs, r => by
    rw [setTargetValues, DNList.setTargetValues, start_invalid, start_target F k vs]

theorem start_bind (F : EqualFold) (k : BindKeyword) : ∀ (vs : List Str) (r : BDNs),
    setBindValues F.eq start r k vs = DNList.setBindValues F.eq r k vs
  | [], _ => rfl
  | v :: vs, r => by
    have h1 : setBindValue F.eq start r k v = DNList.setBindValue F.eq r k v := by
      unfold setBindValue DNList.setBindValue
      rw [start_invalid]
      rfl
    rw [setBindValues, DNList.setBindValues, h1]
    cases DNList.setBindValue F.eq r k v with
    | error _ => rfl
    | ok r' => exact start_bind F k vs r'

/-- **C93** (at the start).  Before anything is changed, texts are read as the other
properties of names say (C36, C80, C84). -/
theorem C93_start (F : EqualFold) (values : List Str) :
    (∀ k, assertBindUGRDN F.eq start values k = DNList.assertBindUGRDN F.eq values k) ∧
      ∀ k, assertTargetTFDN F.eq start values k = Rules.assertTargetTFDN F.eq values k := by
  constructor
  · intro k
    cases values with
    | nil => rfl
    | cons v vs =>
      unfold assertBindUGRDN DNList.assertBindUGRDN
      rw [start_bind]
  · intro k
    unfold assertTargetTFDN Rules.assertTargetTFDN
    rw [start_target]

/-- **C93** as stated: how texts are read is the same at the end of every program. -/
def ReadingIsFixed : Prop :=
  ∀ (F : EqualFold) (p : List (Stmt bindDN)) (values : List Str),
    ReadAlike F (start.run p) start values

theorem alias_iff (F : EqualFold) (m : Mem bindDN) (x : Str) :
    isDNAlias F.eq m x = true ↔ ∃ v, v < 4 ∧ F.eq x (textAt m v) = true := by
  unfold isDNAlias textAt
  simp only [List.any_cons, List.any_nil, Bool.or_false, Bool.or_eq_true]
  constructor
  · rintro (h | h | h | h)
    · exact ⟨0, by omega, h⟩
    · exact ⟨1, by omega, h⟩
    · exact ⟨2, by omega, h⟩
    · exact ⟨3, by omega, h⟩
  · rintro ⟨v, hv, h⟩
    match v, hv with
    | 0, _ => exact Or.inl h
    | 1, _ => exact Or.inr (Or.inl h)
    | 2, _ => exact Or.inr (Or.inr (Or.inl h))
    | 3, _ => exact Or.inr (Or.inr (Or.inr h))

theorem invalid_iff (F : EqualFold) (m : Mem bindDN) (w : Str) :
    isInvalidDNSyntax F.eq m w = false ↔
      3 ≤ w.length ∧ (61 ∈ w ∨ ∀ v, v < 4 → F.eq w (textAt m v) = false) := by
  have hc := containsStr1 w 61
  have ha := alias_iff F m w
  unfold isInvalidDNSyntax
  rw [Bool.or_eq_false_iff, decide_eq_false_iff_not, Nat.not_lt, Bool.not_eq_false', Bool.or_eq_true,
    Bool.not_eq_true', ← Bool.not_eq_true, ha, hc]
  constructor
  · rintro ⟨h1, h2⟩
    exact ⟨h1, h2.imp id fun h v hv => Bool.eq_false_iff.2 fun e => h ⟨v, hv, e⟩⟩
  · rintro ⟨h1, h2⟩
    exact ⟨h1, h2.imp id fun h ⟨v, hv, e⟩ => absurd e (Bool.eq_false_iff.1 (h v hv))⟩

/-- **C93** (exactly).  In any memory, a text is taken as a target name exactly when, after white
space and one scheme, three bytes or more are left, and these hold an `=` or are not what one of
the four variables says now, in any letter case. -/
theorem C93_target (F : EqualFold) (m : Mem bindDN) (k : TargetKeyword) (v w : Str) (h : Checked v w) :
    (∃ r, assertTargetTFDN F.eq m [v] k = .ok r) ↔
      3 ≤ w.length ∧ (61 ∈ w ∨ ∀ x, x < 4 → F.eq w (BindDN.string (m.see x).2) = false) := by
  obtain ⟨c, hc, hb⟩ := h
  rw [condenses_iff] at hc
  subst hc
  refine Iff.trans ?_ (invalid_iff F m w)
  simp only [assertTargetTFDN, setTargetValues, chop_iff.2 hb]
  cases isInvalidDNSyntax F.eq m w <;> simp

/-- **C93** (exactly), bind names: as above, with three bytes or more inside white space and
quotation marks, and no question mark left. -/
theorem C93_bind (F : EqualFold) (m : Mem bindDN) (k : BindKeyword) (v t w : Str) (ht : Inside v t)
    (h : Checked v w) (hu : ¬ ((∃ x, v = scheme ++ x) ∧ 63 ∈ v)) :
    (∃ r, assertBindUGRDN F.eq m [v] k = .ok r) ↔
      3 ≤ t.length ∧ 63 ∉ w ∧
      3 ≤ w.length ∧ (61 ∈ w ∨ ∀ x, x < 4 → F.eq w (BindDN.string (m.see x).2) = false) := by
  obtain ⟨c, hc, hb⟩ := h
  rw [condenses_iff] at hc
  rw [inside_iff] at ht
  subst hc
  subst ht
  have hi := invalid_iff F m w
  have h1 : (Str.hasPrefix v Levels.LocalScheme && Str.containsStr v b!"?") = false := by
    rw [Bool.eq_false_iff]
    intro h'
    rw [Bool.and_eq_true, containsStr1, Str.hasPrefix_iff] at h'
    exact hu ⟨h'.1, h'.2⟩
  have h2 := containsStr1 w 63
  show _ ↔ _ ∧ _ ∧ 3 ≤ w.length ∧ (61 ∈ w ∨ ∀ x, x < 4 → F.eq w (textAt m x) = false)
  rw [← hi]
  simp only [assertBindUGRDN, setBindValues, setBindValue, h1, chop_iff.2 hb]
  by_cases h3 : (unquote (condenseWHSP v)).length < 3
  · rw [if_pos h3]
    constructor
    · rintro ⟨r, h⟩; cases h
    · rintro ⟨h, -⟩; omega
  · rw [if_neg h3]
    cases isInvalidDNSyntax F.eq m w <;> cases hc : Str.containsStr w b!"?" <;> simp [hc] at h2 ⊢ <;>
      first
      | exact ⟨by omega, h2⟩
      | (intro; exact h2)
      | skip

theorem text_form (m : Mem bindDN) (v : Nat) :
    (∃ t, textAt m v = scheme ++ t) ∨ textAt m v = b!"<invalid_bind_distinguished_name>" := by
  unfold textAt BindDN.string stringWith
  split
  · exact Or.inr rfl
  · split
    · exact Or.inr rfl
    · exact Or.inl ⟨_, rfl⟩

/-- **C93** (ordinary texts).  Texts that hold an `=`, and texts with at most one scheme other than
the text that stands for invalid names, are read alike in all memories. -/
theorem C93_ordinary (F : EqualFold) (m n : Mem bindDN) (values : List Str)
    (h : ∀ v ∈ values, ∃ w, Checked v w ∧ Ordinary F w) : ReadAlike F m n values := by
  apply alike_of
  intro v hv
  obtain ⟨w, ⟨c, hc, hb⟩, ho⟩ := h v hv
  rw [condenses_iff] at hc
  subst hc
  rw [chop_iff.2 hb]
  apply invalid_congr F
  refine ho.imp id fun ⟨h1, h2⟩ => ?_
  have : ∀ m : Mem bindDN, isDNAlias F.eq m w = false := by
    intro m
    rw [← Bool.not_eq_true, alias_iff]
    rintro ⟨x, -, e⟩
    rcases text_form m x with ⟨t, ht⟩ | ht <;> rw [ht] at e
    · rw [h1 t] at e; cases e
    · rw [h2] at e; cases e
  rw [this, this]

theorem invoke_vars (m : Mem bindDN) (x : Nat) (c : bindDN.Call) {v : Nat} (h : v ≠ x) :
    (m.invoke x c).1.vars v = m.vars v := by
  unfold Mem.invoke
  split
  · rfl
  · unfold Mem.store; split <;> rfl
  · simp [Mem.put, Mem.alloc, h]
  · rfl

theorem exec_vars (m : Mem bindDN) (s : Stmt bindDN) {v : Nat} (h : assigned s ≠ some v)
    (hc : s.caller ≠ some v) : (m.exec s).vars v = m.vars v := by
  cases s with
  | zero w =>
    have : v ≠ w := fun e => h (by rw [e]; rfl)
    simp [Mem.exec, Mem.put, this]
  | make w x =>
    have : v ≠ w := fun e => h (by rw [e]; rfl)
    simp only [Mem.exec]
    split <;> simp [Mem.put, Mem.alloc, this]
  | copy w x =>
    have : v ≠ w := fun e => h (by rw [e]; rfl)
    simp [Mem.exec, Mem.put, this]
  | call x c => exact invoke_vars m x c fun e => hc (by rw [e]; rfl)
  | assign w x c =>
    have hw : v ≠ w := fun e => h (by rw [e]; rfl)
    have hx : v ≠ x := fun e => hc (by rw [e]; rfl)
    have := invoke_vars m x c hx
    simp only [Mem.exec, Mem.put, if_neg hw, this]

theorem run_vars {v : Nat} : ∀ (p : List (Stmt bindDN)) (m : Mem bindDN),
    (∀ s ∈ p, assigned s ≠ some v) → (∀ s ∈ p, s.caller ≠ some v) → (m.run p).vars v = m.vars v
  | [], _, _, _ => rfl
  | s :: p, m, h, hc =>
    (run_vars p (m.exec s) (fun t ht => h t (List.mem_cons_of_mem _ ht))
      fun t ht => hc t (List.mem_cons_of_mem _ ht)).trans
      (exec_vars m s (h s List.mem_cons_self) (hc s List.mem_cons_self))

/-- **C93** (partial).  A program that leaves the predefined names alone leaves alone how texts are
read.  Missing: programs that change them, through an assignment or through `Set` on a copy. -/
theorem C93_untouched_partial (F : EqualFold) (p : List (Stmt bindDN)) (hp : LeavesNames p)
    (values : List Str) : ReadAlike F (start.run p) start values := by
  obtain ⟨W, hW, hcl, hq, ha⟩ := hp
  apply alike_of
  intro x _
  apply invalid_congr F
  refine Or.inr ?_
  have hs : ∀ v, v < 4 → nameAt (start.run p) ((start.run p).vars v) = nameAt start (start.vars v) := by
    intro v hv
    have h1 : (start.run p).vars v = start.vars v := by
      apply run_vars
      · intro s hs e
        have := ha s hs v e
        omega
      · intro s hs e
        have := hq s hs v e
        rw [hW v hv] at this
        cases this
    have hi : Closed W initNames := by
      intro s hs a ha b hb
      simp only [initNames, List.mem_cons, List.not_mem_nil, or_false] at hs
      rcases hs with rfl | rfl | rfl | rfl <;>
        (simp only [Stmt.names, List.mem_cons, List.not_mem_nil, or_false] at ha hb; rw [ha, hb])
    rw [h1]
    exact congrArg Prod.snd (kept_quiet initNames p W hi hcl hq v (hW v hv))
  simp only [isDNAlias, List.any_cons, List.any_nil, hs 0 (by omega), hs 1 (by omega), hs 2 (by omega),
    hs 3 (by omega)]

/-- `d := SelfDN; d.Set("me")`. -/
def changing : List (Stmt bindDN) := [.copy 4 2, .call 4 (b!"me", [])]

/-- **C93** (what changes).  After `d := SelfDN; d.Set("me")` the text `ldap:///ldap:///me` is no
longer taken for a name, while `ldap:///ldap:///self` has become one. -/
theorem C93_changes (F : EqualFold) (k : TargetKeyword) :
    (∃ r, assertTargetTFDN F.eq start [b!"ldap:///ldap:///me"] k = .ok r) ∧
    (¬ ∃ r, assertTargetTFDN F.eq (start.run changing) [b!"ldap:///ldap:///me"] k = .ok r) ∧
    (¬ ∃ r, assertTargetTFDN F.eq start [b!"ldap:///ldap:///self"] k = .ok r) ∧
    ∃ r, assertTargetTFDN F.eq (start.run changing) [b!"ldap:///ldap:///self"] k = .ok r := by
  have h1 : Checked b!"ldap:///ldap:///me" b!"ldap:///me" :=
    ⟨_, (condenses_iff _ _).2 rfl, chop_iff.1 (by decide +kernel)⟩
  have h2 : Checked b!"ldap:///ldap:///self" b!"ldap:///self" :=
    ⟨_, (condenses_iff _ _).2 rfl, chop_iff.1 (by decide +kernel)⟩
  have h4 : ∀ (m : Mem bindDN) (w : Str), (∀ x, x < 4 → Str.IsAscii (BindDN.string (m.see x).2)) →
      ((∀ x, x < 4 → F.eq w (BindDN.string (m.see x).2) = false) ↔
        ∀ x, x < 4 → Str.eqFold w (BindDN.string (m.see x).2) = false) := by
    intro m w hm
    constructor <;> intro h x hx
    · rw [← eq_ascii F _ _ (hm x hx)]; exact h x hx
    · rw [eq_ascii F _ _ (hm x hx)]; exact h x hx
  have a1 : ∀ x, x < 4 → Str.IsAscii (BindDN.string (start.see x).2) := by decide +kernel
  have a2 : ∀ x, x < 4 → Str.IsAscii (BindDN.string ((start.run changing).see x).2) := by decide +kernel
  simp only [C93_target F _ k _ _ h1, C93_target F _ k _ _ h2, h4 _ _ a1, h4 _ _ a2]
  refine ⟨by decide +kernel, by decide +kernel, by decide +kernel, by decide +kernel⟩

/-- **C93** fails. -/
theorem C93_counterexample : ¬ ReadingIsFixed := by
  intro h
  obtain ⟨⟨r, h1⟩, h2, -⟩ := C93_changes EqualFold.ref Target
  have := (h EqualFold.ref changing [b!"ldap:///ldap:///me"]).2 Target
  exact h2 ⟨r, this.trans h1⟩

/-! ## The hypotheses are met -/

-- C93_target, C93_bind: `ldap:///self` is checked as `self`
example : Checked b!" ldap:///self " b!"self" ∧ Inside b!" ldap:///self " b!"ldap:///self" :=
  ⟨⟨_, (condenses_iff _ _).2 rfl, chop_iff.1 (by decide +kernel)⟩, (inside_iff _ _).2 (by decide +kernel)⟩

-- C93_ordinary: names with and without a scheme
example (F : EqualFold) : ∀ v ∈ [b!"ldap:///self", b!"cn=a,dc=b"], ∃ w, Checked v w ∧ Ordinary F w := by
  intro v hv
  simp only [List.mem_cons, List.not_mem_nil, or_false] at hv
  rcases hv with rfl | rfl
  · refine ⟨b!"self", ⟨_, (condenses_iff _ _).2 rfl, chop_iff.1 (by decide +kernel)⟩, Or.inr ⟨?_, ?_⟩⟩
    · intro t
      rw [Bool.eq_false_iff]
      intro h
      have h' := (F.ascii _ _ (by decide)).1 (F.symm _ _ h)
      have e : (Str.fold (scheme ++ t)).head? = (Str.fold b!"self").head? := congrArg _ h'
      exact absurd e (by simp [scheme, Str.fold]; try decide)
    · rw [eq_ascii F _ _ (by decide)]; decide +kernel
  · exact ⟨b!"cn=a,dc=b", ⟨_, (condenses_iff _ _).2 rfl, chop_iff.1 (by decide +kernel)⟩, Or.inl (by decide)⟩

-- C93_untouched_partial: a copy of `SelfDN` and calls on another name
example : LeavesNames [.copy 4 2, .make 5 (BindGDN, b!"cn=g"), .call 5 (b!"cn=h", [])] := by
  refine ⟨fun v => v != 5, ?_, ?_, ?_, ?_⟩
  · intro v hv
    have : v ≠ 5 := by omega
    simpa using this
  · intro s hs v hv w hw
    simp only [List.mem_cons, List.not_mem_nil, or_false] at hs
    rcases hs with rfl | rfl | rfl <;>
      simp only [Stmt.names, List.mem_cons, List.not_mem_nil, or_false] at hv hw
    · rcases hv with rfl | rfl <;> rcases hw with rfl | rfl <;> rfl
    · subst hv hw; rfl
    · subst hv hw; rfl
  · intro s hs v hv
    simp only [List.mem_cons, List.not_mem_nil, or_false] at hs
    rcases hs with rfl | rfl | rfl <;> cases hv
    rfl
  · intro s hs v hv
    simp only [List.mem_cons, List.not_mem_nil, or_false] at hs
    rcases hs with rfl | rfl | rfl <;> cases hv <;> omega

end Verif.Globals
