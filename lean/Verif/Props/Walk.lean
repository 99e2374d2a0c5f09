import Verif.Props.Builders
import Verif.Props.Sec
import Verif.Props.Levels
import Verif.Model.Values
import Verif.Model.BindText
import Verif.Model.Ins
import Verif.Model.Walk

/-!
# Walking maps: property C137

Go walks a map in an order that is different in every run of the program and every time the map is
walked.  Each order is a permutation of the entries.
-/

namespace Verif.Walk
open Verif Verif.Spec Verif.Misc

theorem find_perm {α β : Type} {p : α → Bool} {g : α → β} {m m' : List α} (h : m.Perm m')
    (hu : ∀ a ∈ m, ∀ b ∈ m, p a = true → p b = true → g a = g b) :
    (m.find? p).map g = (m'.find? p).map g := by
  cases e : m.find? p with
  | none =>
    have : m'.find? p = none := by
      rw [List.find?_eq_none] at e ⊢
      exact fun a ha => e a (h.mem_iff.2 ha)
    rw [this]
  | some a =>
    cases e' : m'.find? p with
    | none =>
      rw [List.find?_eq_none] at e'
      exact absurd (List.find?_some e) (e' a (h.mem_iff.1 (List.mem_of_find?_eq_some e)))
    | some b =>
      have := hu a (List.mem_of_find?_eq_some e) b (h.mem_iff.2 (List.mem_of_find?_eq_some e'))
        (List.find?_some e) (List.find?_some e')
      simp [this]

/-! ## Words -/

theorem matchOn_find (m : List (UInt8 × Str)) (s : Str) :
    matchOn m s = ((m.find? fun e => Str.eqFold s e.2).map (·.1)).getD 0 := by
  induction m with
  | nil => rfl
  | cons e m ih =>
    simp only [matchOn, List.find?_cons]
    cases Str.eqFold s e.2 <;> simp [ih]

theorem match_perm {m m' m0 : List (UInt8 × Str)} (h : m.Perm m0) (h' : m'.Perm m0) (hd : FoldDistinct m0) (s : Str) :
    matchOn m s = matchOn m' s := by
  rw [matchOn_find, matchOn_find, find_perm (h.trans h'.symm)]
  intro a ha b hb e f
  have := hd.perm h a ha b hb (((eqFold_iff _ _).1 e).symm.trans ((eqFold_iff _ _).1 f))
  rw [this]

theorem cop_unique {s : Str} {a b : Cop} (ha : ∃ q, relConst q = a) (hb : ∃ q, relConst q = b)
    (h : strInSliceFold s [Cop.string a, Cop.context a, Cop.description a] = true)
    (h' : strInSliceFold s [Cop.string b, Cop.context b, Cop.description b] = true) : a = b := by
  obtain ⟨q, rfl⟩ := ha
  obtain ⟨r, rfl⟩ := hb
  rw [relConst_texts] at h h'
  rw [text_unique ((strInSliceFold_iff _ _).1 h) ((strInSliceFold_iff _ _).1 h')]

theorem matchCOP_find (m : List Cop) (s : Str) :
    matchCOPOn m s = ((m.find? fun v => strInSliceFold s [Cop.string v, Cop.context v, Cop.description v]).map id).getD 0 := by
  induction m with
  | nil => rfl
  | cons v m ih =>
    simp only [matchCOPOn, List.find?_cons]
    cases strInSliceFold s [Cop.string v, Cop.context v, Cop.description v] <;> simp [ih]

/-- **C137** for words: keywords, bind types and operators are the same in every order of their maps. -/
theorem C137_words (s : Str) :
    (∀ m m' : List (BindKeyword × Str), m.Perm bkwMap → m'.Perm bkwMap → matchOn m s = matchOn m' s) ∧
    (∀ m m' : List (TargetKeyword × Str), m.Perm tkwMap → m'.Perm tkwMap → matchOn m s = matchOn m' s) ∧
    (∀ m m' : List (BindType × Str), m.Perm btMap → m'.Perm btMap → matchOn m s = matchOn m' s) ∧
    (∀ m m' : List Cop, m.Perm copMap → m'.Perm copMap → matchCOPOn m s = matchCOPOn m' s) := by
  refine ⟨fun m m' h h' => match_perm h h' bkw_distinct s, fun m m' h h' => match_perm h h' tkw_distinct s,
    fun m m' h h' => match_perm h h' bt_distinct s, fun m m' h h' => ?_⟩
  rw [matchCOP_find, matchCOP_find, find_perm (h.trans h'.symm)]
  intro a ha b hb e f
  exact cop_unique (copMap_rel a (h.mem_iff.1 ha)) (copMap_rel b (h.mem_iff.1 hb)) e f

example : bkwMap.reverse.Perm bkwMap ∧ matchOn bkwMap.reverse b!"UserDN" = BindUDN := by
  exact ⟨List.reverse_perm _, by decide +kernel⟩

/-! ## Rights and levels -/

theorem names_last (m : List (Rights.Right × Str)) (s : Str) :
    Rights.rightsNamesOn m s = (m.reverse.find? fun e => e.2 == s).map (·.1) := by
  have key : ∀ r, m.foldl (fun r e => if e.2 = s then some e.1 else r) r =
      ((m.reverse.find? fun e => e.2 == s).map (·.1)).or r := by
    induction m with
    | nil => intro r; simp
    | cons e m ih =>
      intro r
      rw [List.foldl_cons, ih]
      simp only [List.reverse_cons, List.find?_append]
      cases (m.reverse.find? fun e => e.2 == s) with
      | some a => simp
      | none => by_cases h : e.2 = s <;> simp [h]
  rw [Rights.rightsNamesOn, key]; simp

theorem levels_find (m : List (Str × Levels.Level)) (x : Str) :
    Levels.assertStrOn m x = ((m.find? fun e => decide (x = e.1)).map (·.2)).getD Levels.noLvl := by
  induction m with
  | nil => rfl
  | cons e m ih =>
    obtain ⟨k, v⟩ := e
    simp only [Levels.assertStrOn, List.find?_cons]
    by_cases h : x = k <;> simp [h, ih]

theorem text_find (m : List (Str × Levels.Level)) (r : Levels.Level) :
    Levels.levelStringOn m r = ((m.find? fun e => decide (r = e.2)).map (·.1)).getD [] := by
  induction m with
  | nil => rfl
  | cons e m ih =>
    obtain ⟨k, v⟩ := e
    simp only [Levels.levelStringOn, List.find?_cons]
    by_cases h : r = v <;> simp [h, ih]

/-- **C137** for rights: the map of names is the same in whatever order it was filled. -/
theorem C137_rights (m m' : List (Rights.Right × Str)) (h : m.Perm Rights.rightsMap) (h' : m'.Perm Rights.rightsMap)
    (s : Str) : Rights.rightsNamesOn m s = Rights.rightsNamesOn m' s ∧ Rights.rightsNamesOn m s = Rights.rightsNames s := by
  have hu : ∀ a ∈ Rights.rightsMap, ∀ b ∈ Rights.rightsMap, a.2 = b.2 → a.1 = b.1 := by decide +kernel
  have key : ∀ m : List (Rights.Right × Str), m.Perm Rights.rightsMap → Rights.rightsNamesOn m s = Rights.rightsNames s := by
    intro m h
    have hp := (List.reverse_perm m).trans h
    rw [names_last, Rights.rightsNames, find_perm hp]
    intro a ha b hb e f
    simp only [beq_iff_eq] at e f
    exact hu a (hp.mem_iff.1 ha) b (hp.mem_iff.1 hb) (e.trans f.symm)
  exact ⟨(key m h).trans (key m' h').symm, key m h⟩

example : Rights.rightsNamesOn Rights.rightsMap.reverse b!"read" = some Rights.ReadAccess := by decide +kernel

/-- **C137** for levels: their names and their texts are the same in every order of the map. -/
theorem C137_levels (m m' : List (Str × Levels.Level)) (h : m.Perm Levels.levelNumbers)
    (h' : m'.Perm Levels.levelNumbers) :
    (∀ s, Levels.assertStrOn m s = Levels.assertStrOn m' s) ∧
    (∀ l, Levels.levelStringOn m l = Levels.levelStringOn m' l) := by
  have hu : ∀ a ∈ Levels.levelNumbers, ∀ b ∈ Levels.levelNumbers, (a.1 = b.1 ↔ a.2 = b.2) := by decide +kernel
  refine ⟨fun s => ?_, fun l => ?_⟩
  · rw [levels_find, levels_find, find_perm (h.trans h'.symm)]
    intro a ha b hb e f
    simp only [decide_eq_true_eq] at e f
    exact (hu a (h.mem_iff.1 ha) b (h.mem_iff.1 hb)).1 (e.symm.trans f)
  · rw [text_find, text_find, find_perm (h.trans h'.symm)]
    intro a ha b hb e f
    simp only [decide_eq_true_eq] at e f
    exact (hu a (h.mem_iff.1 ha) b (h.mem_iff.1 hb)).2 (e.symm.trans f)

example : Levels.assertStrOn Levels.levelNumbers.reverse b!"7" = Levels.Level7 := by decide +kernel

/-! ## Authentication methods -/

theorem byName_find (tv : Str) (m : List (Str × Sec.AuthenticationMethod)) :
    Sec.byName tv m = ((m.find? fun e => Str.eqFold e.1 tv).map (·.2)).getD Sec.Anonymous := by
  induction m with
  | nil => rfl
  | cons e m ih =>
    obtain ⟨k, v⟩ := e
    simp only [Sec.byName, List.find?_cons]
    cases Str.eqFold k tv <;> simp [ih]

theorem byNumber_find (tv : Int) (m : List (Int × Sec.AuthenticationMethod)) :
    Sec.byNumber tv m = ((m.find? fun e => decide (e.1 = tv)).map (·.2)).getD Sec.Anonymous := by
  induction m with
  | nil => rfl
  | cons e m ih =>
    obtain ⟨k, v⟩ := e
    simp only [Sec.byNumber, List.find?_cons]
    by_cases h : k = tv <;> simp [h, ih]

theorem authString_find (low : Bool) (r : Sec.AuthenticationMethod) (m : List (Str × Sec.AuthenticationMethod)) :
    Sec.authString m low r = ((m.find? fun e => decide (e.2 = r)).map fun e => Sec.foldAuthenticationMethod low e.1).getD [] := by
  induction m with
  | nil => rfl
  | cons e m ih =>
    obtain ⟨k, v⟩ := e
    simp only [Sec.authString, List.find?_cons]
    by_cases h : v = r <;> simp [h, ih]

/-- **C137** for authentication methods: they are found by name and by number, and printed, alike in every
order of the two maps. -/
theorem C137_methods (n n' : List (Int × Sec.AuthenticationMethod)) (m m' : List (Str × Sec.AuthenticationMethod))
    (hn : n.Perm Sec.authMap) (hn' : n'.Perm Sec.authMap) (hm : m.Perm Sec.authNames) (hm' : m'.Perm Sec.authNames) :
    (∀ a, Sec.matchAuthenticationMethod n m a = Sec.matchAuthenticationMethod n' m' a) ∧
    (∀ low a, Sec.authString m low a = Sec.authString m' low a) := by
  have hu : ∀ a ∈ Sec.authNames, ∀ b ∈ Sec.authNames, (Str.fold a.1 = Str.fold b.1 ∨ a.2 = b.2) → a = b := by
    decide +kernel
  have hv : ∀ a ∈ Sec.authMap, ∀ b ∈ Sec.authMap, a.1 = b.1 → a.2 = b.2 := by decide +kernel
  have h1 : ∀ s, Sec.byName s m = Sec.byName s m' := by
    intro s
    rw [byName_find, byName_find, find_perm (hm.trans hm'.symm)]
    intro a ha b hb e f
    rw [hu a (hm.mem_iff.1 ha) b (hm.mem_iff.1 hb)
      (.inl (((eqFold_iff _ _).1 e).trans ((eqFold_iff _ _).1 f).symm))]
  have h2 : ∀ i, Sec.byNumber i n = Sec.byNumber i n' := by
    intro s
    rw [byNumber_find, byNumber_find, find_perm (hn.trans hn'.symm)]
    intro a ha b hb e f
    simp only [decide_eq_true_eq] at e f
    exact hv a (hn.mem_iff.1 ha) b (hn.mem_iff.1 hb) (e.trans f.symm)
  refine ⟨fun a => ?_, fun low r => ?_⟩
  · cases a with
    | int i => exact h2 i
    | str s => exact h1 s
    | null => rfl
    | other => rfl
  · rw [authString_find, authString_find, find_perm (hm.trans hm'.symm)]
    intro a ha b hb e f
    simp only [decide_eq_true_eq] at e f
    rw [hu a (hm.mem_iff.1 ha) b (hm.mem_iff.1 hb) (.inr (e.trans f.symm))]

example : Sec.authString Sec.authNames.reverse true Sec.SASL = b!"sasl" ∧
    Sec.byName b!"SASL" Sec.authNames.reverse = Sec.SASL := by decide +kernel

/-! ## Tables of rule methods -/

theorem range_find {μ : Type} (s : Str) (m : List (Cop × μ)) :
    rangeFuncMap s m = ((m.find? fun e => strInSliceFold s [Cop.string e.1, Cop.context e.1, Cop.description e.1]).map
      fun e => (e.1, some e.2)).getD (badCop, none) := by
  induction m with
  | nil => rfl
  | cons e m ih =>
    obtain ⟨k, v⟩ := e
    simp only [rangeFuncMap, List.find?_cons]
    cases strInSliceFold s [Cop.string k, Cop.context k, Cop.description k] <;> simp [ih]

theorem same_entry {μ : Type} {l : List (Cop × μ)} (h : (l.map (·.1)).Nodup) {a b : Cop × μ} (ha : a ∈ l) (hb : b ∈ l)
    (e : a.1 = b.1) : a = b := by
  induction l with
  | nil => cases ha
  | cons c l ih =>
    simp only [List.map_cons, List.nodup_cons, List.mem_map, not_exists, not_and] at h
    rcases List.mem_cons.1 ha with rfl | ha' <;> rcases List.mem_cons.1 hb with rfl | hb'
    · rfl
    · exact absurd e.symm (h.1 b hb')
    · exact absurd e (h.1 a ha')
    · exact ih h.2 ha' hb'

theorem index_perm {μ : Type} {l l' : List (Cop × μ)} (hl : MapOk l) (h : l'.Perm l) (a : OpArg) :
    BindRuleMethods.index (some l') a = BindRuleMethods.index (some l) a ∧
    TargetRuleMethods.index (some l') a = TargetRuleMethods.index (some l) a := by
  have hg : ∀ c, mapGet l' c = mapGet l c := by
    intro c
    rw [mapGet, mapGet, find_perm h]
    intro a ha b hb e f
    simp only [beq_iff_eq] at e f
    rw [same_entry hl.1 (h.mem_iff.1 ha) (h.mem_iff.1 hb) (e.trans f.symm)]
  have hr : ∀ s, rangeFuncMap s l' = rangeFuncMap s l := by
    intro s
    rw [range_find, range_find, find_perm h]
    intro a ha b hb e f
    rw [same_entry hl.1 (h.mem_iff.1 ha) (h.mem_iff.1 hb)
      (cop_unique (hl.2 a (h.mem_iff.1 ha)) (hl.2 b (h.mem_iff.1 hb)) e f)]
  have hb : ∀ i, BindRuleMethods.byInt l' i = BindRuleMethods.byInt l i := fun i => by
    simp only [BindRuleMethods.byInt, hg]
  have ht : ∀ i, TargetRuleMethods.byInt l' i = TargetRuleMethods.byInt l i := fun i => by
    simp only [TargetRuleMethods.byInt, hg]
  cases a with
  | cop c => exact ⟨hb _, ht _⟩
  | int i => exact ⟨hb _, ht _⟩
  | str s => exact ⟨hr _, hr _⟩
  | other => exact ⟨rfl, rfl⟩

open Verif.Bind Verif.Builders in
/-- **C137** for the tables of rule methods of all values: what is found in a table, whether an operator is in
it and whether it is valid are the same in every order of the table. -/
theorem C137_tables (S : Shifty 8) :
    (∀ (v : BVal) (l l' : List (Cop × BRule)), brm S v = some l → l'.Perm l → ∀ a,
      BindRuleMethods.index (some l') a = BindRuleMethods.index (some l) a ∧
      BindRuleMethods.contains (some l') a = BindRuleMethods.contains (some l) a ∧
      bindMethodsValid (some l') = bindMethodsValid (some l) ∧ methodsLen (some l') = methodsLen (some l)) ∧
    (∀ (v : TVal) (l l' : List (Cop × Rules.TRule)), trm v = some l → l'.Perm l → ∀ a,
      TargetRuleMethods.index (some l') a = TargetRuleMethods.index (some l) a ∧
      TargetRuleMethods.contains (some l') a = TargetRuleMethods.contains (some l) a ∧
      targetMethodsValid (some l') = targetMethodsValid (some l) ∧ methodsLen (some l') = methodsLen (some l)) := by
  have hb : ∀ v l, brm S v = some l → MapOk l := by
    intro v l h
    cases v <;> simp only [brm, Option.some.injEq] at h <;> subst h <;>
      first | exact mapOk_eqNe _ | exact mapOk_allSix _
  have ht : ∀ v l, trm v = some l → MapOk l := by
    intro v l h
    cases v with
    | ats a => cases a <;> simp only [trm, Option.some.injEq, reduceCtorEq] at h; subst h; exact mapOk_eqNe _
    | uriAts a => simp [trm] at h
    | scope s => simp only [trm, Option.some.injEq] at h; subst h; exact ⟨by simp, by simpa using ⟨.eq, rfl⟩⟩
    | oids o =>
      simp only [trm, Option.some.injEq] at h; subst h
      exact ⟨by simp only [List.map_cons, List.map_nil]; decide, by
        intro e he; simp at he; rcases he with rfl | rfl
        · exact ⟨.eq, rfl⟩
        · exact ⟨.ne, rfl⟩⟩
    | afo o =>
      simp only [trm, Option.some.injEq] at h; subst h
      exact ⟨by simp only [List.map_cons, List.map_nil]; decide, by
        intro e he; simp at he; rcases he with rfl | rfl
        · exact ⟨.eq, rfl⟩
        · exact ⟨.ne, rfl⟩⟩
    | afos o =>
      simp only [trm, Option.some.injEq] at h; subst h
      exact ⟨by simp only [List.map_cons, List.map_nil]; decide, by
        intro e he; simp at he; rcases he with rfl | rfl
        · exact ⟨.eq, rfl⟩
        · exact ⟨.ne, rfl⟩⟩
    | _ => simp only [trm, Option.some.injEq] at h; subst h; exact mapOk_eqNe _
  refine ⟨fun v l l' h hp a => ?_, fun v l l' h hp a => ?_⟩
  · have e := fun a => (index_perm (hb v l h) hp a).1
    refine ⟨e a, by rw [BindRuleMethods.contains, BindRuleMethods.contains, e], ?_, hp.length_eq⟩
    simp [bindMethodsValid, e]
  · have e := fun a => (index_perm (ht v l h) hp a).2
    refine ⟨e a, by rw [TargetRuleMethods.contains, TargetRuleMethods.contains, e], ?_, hp.length_eq⟩
    simp [targetMethodsValid, e]

/-! ## Reading and printing -/

open Verif.Bind in
/-- Two surroundings that differ in nothing but the order in which maps are walked. -/
def SameBut (e e' : Env) : Prop :=
  e.eq = e'.eq ∧ e.shifty = e'.shifty ∧ e.low = e'.low ∧
    e.names.Perm Sec.authNames ∧ e.names'.Perm Sec.authNames ∧ e'.names.Perm Sec.authNames ∧ e'.names'.Perm Sec.authNames

open Verif.Bind in
theorem readBind_walk {e e' : Env} (h : SameBut e e') : readBind e = readBind e' := by
  obtain ⟨eq, sh, n1, n2, low⟩ := e
  obtain ⟨eq', sh', n1', n2', low'⟩ := e'
  obtain ⟨h1, h2, h3, p1, p2, p3, p4⟩ := h
  dsimp only at h1 h2 h3 p1 p2 p3 p4
  subst h1 h2 h3
  have hn := (C137_methods _ _ _ _ (List.Perm.refl _) (List.Perm.refl _) p1 p3).1
  have hs := (C137_methods _ _ _ _ (List.Perm.refl _) (List.Perm.refl _) p2 p4).2
  have key : Sec.assertBindAuthenticationMethod n1 n2 low = Sec.assertBindAuthenticationMethod n1' n2' low := by
    funext vs
    match vs with
    | [] => rfl
    | _ :: _ :: _ => rfl
    | [v] =>
      have : ∀ s, Sec.byName s n1 = Sec.byName s n1' := fun s => hn (.str s)
      simp only [Sec.assertBindAuthenticationMethod, this, hs]
  funext k vs
  simp only [readBind, key]

open Verif.Bind

mutual

theorem convert_walk {e e' : Env} (h : SameBut e e') (text : BCtx → Str) : ∀ t, convert e text t = convert e' text t
  | .stack k p es => by
    unfold convert
    cases wordToStack k with
    | none => rfl
    | some w => simp only [convertList_walk h text [] es]
  | .cond r => rfl
  | .other => rfl

theorem convertList_walk {e e' : Env} (h : SameBut e e') (text : BCtx → Str) :
    ∀ acc ts, convertList e text acc ts = convertList e' text acc ts
  | acc, [] => rfl
  | acc, .cond r :: es => by
    have hr : r.assertValue e = r.assertValue e' := by
      simp only [BRule.assertValue, readBind_walk h]
    unfold convertList
    rw [hr]
    cases r.assertValue e' with
    | panic => rfl
    | err => rfl
    | ok r' => exact convertList_walk h text _ es
  | acc, .stack k p sub :: es => by
    unfold convertList
    rw [convert_walk h text (.stack k p sub)]
    cases convert e' text (.stack k p sub) with
    | panic => rfl
    | err => rfl
    | ok c =>
      obtain ⟨c, ok⟩ := c
      cases ok with
      | false => rfl
      | true => simp only [if_true]; exact convertList_walk h text _ es
  | acc, .other :: es => by
    unfold convertList
    exact convertList_walk h text acc es

end

/-- **C137** for reading and printing: the values of bind rules, bind rules, permission bind rules and instructions
are read, and values printed, alike in every order of the maps. -/
theorem C137_reading (e e' : Env) (h : SameBut e e') :
    (∀ k vs, readBind e k vs = readBind e' k vs) ∧
    (∀ text t, parseBindRules e text t = parseBindRules e' text t) ∧
    (∀ S text targets dot t, PB.process ⟨S, e, text, targets, dot⟩ t = PB.process ⟨S, e', text, targets, dot⟩ t) ∧
    (∀ S text targets dot rd t, Ins.parse ⟨S, e, text, targets, dot⟩ rd t = Ins.parse ⟨S, e', text, targets, dot⟩ rd t) := by
  have hp : ∀ S text targets dot, PB.process ⟨S, e, text, targets, dot⟩ = PB.process ⟨S, e', text, targets, dot⟩ := by
    intro S text targets dot
    funext t
    simp only [PB.process, convert_walk h]
  refine ⟨fun k vs => by rw [readBind_walk h], fun text t => by simp only [parseBindRules, convert_walk h],
    fun S text targets dot t => by rw [hp], fun S text targets dot rd t => ?_⟩
  have hq : e.eq = e'.eq := h.1
  have ha : PB.accept ⟨S, e, text, targets, dot⟩ rd = PB.accept ⟨S, e', text, targets, dot⟩ rd := by
    funext es x
    cases x <;> simp only [PB.accept, PB.contains, hq] <;> rfl
  have hpush : PB.push ⟨S, e, text, targets, dot⟩ rd = PB.push ⟨S, e', text, targets, dot⟩ rd := by
    funext es xs
    induction xs generalizing es with
    | nil => rfl
    | cons x xs ih =>
      cases x <;> simp only [PB.push, PB.push1, ha, ih]
  have hl : ∀ ts es, PB.processLoop ⟨S, e, text, targets, dot⟩ rd es ts =
      PB.processLoop ⟨S, e', text, targets, dot⟩ rd es ts := by
    intro ts
    induction ts with
    | nil => intro es; rfl
    | cons t ts ih =>
      intro es
      cases t with
      | none => simp only [PB.processLoop]; exact ih es
      | some t => simp only [PB.processLoop, hp, hpush, ih]
  have hset : ∀ r xs, Ins.set ⟨S, e, text, targets, dot⟩ rd r xs = Ins.set ⟨S, e', text, targets, dot⟩ rd r xs := by
    intro r xs
    have : Ins.assert1 ⟨S, e, text, targets, dot⟩ rd = Ins.assert1 ⟨S, e', text, targets, dot⟩ rd := by
      funext b x
      cases x <;> simp only [Ins.assert1, hpush]
    simp only [Ins.set, Ins.setBody, this]
  have has : Ins.assemble ⟨S, e, text, targets, dot⟩ rd = Ins.assemble ⟨S, e', text, targets, dot⟩ rd := by
    funext t a o
    cases o <;> simp only [Ins.assemble, hset]
  simp only [Ins.parse, PB.processAll, hl, hq, has]

/-- **C137** for texts: the texts of values, rules and whole expressions of bind rules are the same in every order of
the map. -/
theorem C137_texts (levels : Shifty 16) (days : Shifty 8) (low : Bool) (m m' : List (Str × Sec.AuthenticationMethod))
    (h : m.Perm Sec.authNames) (h' : m'.Perm Sec.authNames) :
    (∀ x, BExpr.texts ⟨levels, days, m, low⟩ x = BExpr.texts ⟨levels, days, m', low⟩ x) ∧
    (∀ r : BRule, r.text (BExpr.texts ⟨levels, days, m, low⟩) = r.text (BExpr.texts ⟨levels, days, m', low⟩)) ∧
    (∀ many (c : BCtx), c.text (BExpr.texts ⟨levels, days, m, low⟩) many =
      c.text (BExpr.texts ⟨levels, days, m', low⟩) many) := by
  have e : BExpr.texts ⟨levels, days, m, low⟩ = BExpr.texts ⟨levels, days, m', low⟩ := by
    funext x
    have := (C137_methods _ _ _ _ (List.Perm.refl _) (List.Perm.refl _) h h').2
    cases x <;> simp only [BExpr.texts, this]
  exact ⟨fun x => by rw [e], fun r => by rw [e], fun many c => by rw [e]⟩

example : BExpr.texts ⟨.anyRef 16, .anyRef 8, Sec.authNames.reverse, true⟩ (.am Sec.SASL) = [b!"sasl"] := by
  decide +kernel

open Verif.Builders in
example : ∃ l, brm (.anyRef 8) (.am Sec.SASL) = some l ∧ l.reverse.Perm l ∧ l.reverse.map (·.1) ≠ l.map (·.1) :=
  ⟨_, rfl, List.reverse_perm _, by decide +kernel⟩

example : SameBut plainEnv { plainEnv with names := Sec.authNames.reverse } ∧
    plainEnv.names ≠ Sec.authNames.reverse :=
  ⟨⟨rfl, rfl, rfl, .refl _, .refl _, List.reverse_perm _, .refl _⟩, by decide +kernel⟩

end Verif.Walk
