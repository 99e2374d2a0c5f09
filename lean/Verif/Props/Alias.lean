import Verif.Lemmas.Alias
import Verif.Props.PB
import Verif.Model.BindText

/-!
# C91, C92: values and their copies
-/

namespace Verif.Alias
open Verif

/-! ## What one call does -/

section
variable {K : Cls}

theorem see_alloc_put (m : Mem K) (o : K.Obj) (v : Nat) (t : K.Tag) :
    (((m.alloc o).put v ⟨t, some m.heap.length⟩)).see v = (t, some o) := by
  simp [Mem.see, Mem.look, Mem.put, Mem.alloc]

theorem see_store (m : Mem K) (v : Nat) (a o : K.Obj) (h : (m.see v).2 = some a) :
    (m.store (m.vars v).ptr o).see v = ((m.vars v).tag, some o) := by
  unfold Mem.see Mem.look at h ⊢
  unfold Mem.store
  cases hp : (m.vars v).ptr with
  | none => rw [hp] at h; cases h
  | some i =>
    rw [hp] at h
    have hi : i < m.heap.length := by
      have h' : m.heap[i]? = some a := h
      exact (List.getElem?_eq_some_iff.mp h').1
    simp [hp, hi]

theorem look_put (m : Mem K) (w : Nat) (r s : Ref K) : (m.put w r).look s = m.look s := rfl

theorem see_put (m : Mem K) (w : Nat) (r : Ref K) : (m.put w r).see w = m.look r := by
  simp [Mem.see, Mem.put, Mem.look]

theorem look_alloc (m : Mem K) (o : K.Obj) (r : Ref K)
    (h : ∀ a, r.ptr = some a → a < m.heap.length) : (m.alloc o).look r = m.look r := by
  unfold Mem.look
  cases hp : r.ptr with
  | none => rfl
  | some i =>
    show (_, (m.heap ++ [o])[i]?) = (_, m.heap[i]?)
    rw [List.getElem?_append_left (h i hp)]

/-- A type whose methods never store through a nil pointer. -/
def NoNil (K : Cls) : Prop := ∀ t c b, K.eff t none c ≠ .write b

/-- What the receiver stands for after a call. -/
def Eff.left {K : Cls} (x : K.Tag × Option K.Obj) : Eff K.Obj → K.Tag × Option K.Obj
  | .keep => x
  | .write o => (x.1, some o)
  | .fresh o => (x.1, some o)
  | .give _ => x

/-- What is returned by a call. -/
def Eff.back {K : Cls} (x : K.Tag × Option K.Obj) : Eff K.Obj → K.Tag × Option K.Obj
  | .keep => x
  | .write o => (x.1, some o)
  | .fresh o => (x.1, some o)
  | .give o => (K.zero, some o)

theorem call_see (hK : NoNil K) {m : Mem K} (hm : m.Wf) (v : Nat) (c : K.Call) :
    (m.exec (.call v c)).see v = (K.eff (m.see v).1 (m.see v).2 c).left (m.see v) := by
  show (m.invoke v c).1.see v = _
  unfold Mem.invoke
  cases h : K.eff (m.see v).1 (m.see v).2 c with
  | keep => rfl
  | write o =>
    cases hs : (m.see v).2 with
    | none => rw [hs] at h; exact absurd h (hK _ _ _)
    | some a => exact see_store m v a o hs
  | fresh o => exact see_alloc_put m o v _
  | give o => exact look_alloc m o _ (hm v)

theorem assign_see (hK : NoNil K) (m : Mem K) (w v : Nat) (c : K.Call) :
    (m.exec (.assign w v c)).see w = (K.eff (m.see v).1 (m.see v).2 c).back (m.see v) := by
  show ((m.invoke v c).1.put w (m.invoke v c).2).see w = _
  rw [see_put]
  unfold Mem.invoke
  cases h : K.eff (m.see v).1 (m.see v).2 c with
  | keep => rfl
  | write o =>
    cases hs : (m.see v).2 with
    | none => rw [hs] at h; exact absurd h (hK _ _ _)
    | some a =>
      have := see_store m v a o hs
      unfold Mem.see at this
      have e : (m.store (m.vars v).ptr o).vars v = m.vars v := by
        unfold Mem.store; split <;> rfl
      rw [e] at this
      exact this
  | fresh o => simp [Mem.look, Mem.put, Mem.alloc, Eff.back, Mem.see]
  | give o => simp [Mem.look, Mem.alloc, Eff.back]

/-- A call that does not store leaves all other variables alone. -/
theorem call_other {m : Mem K} (hm : m.Wf) {v w : Nat} (hvw : v ≠ w) (c : K.Call)
    (h : ∀ o, K.eff (m.see v).1 (m.see v).2 c ≠ .write o) :
    (m.exec (.call v c)).see w = m.see w := by
  show (m.invoke v c).1.see w = _
  unfold Mem.invoke
  cases he : K.eff (m.see v).1 (m.see v).2 c with
  | keep => rfl
  | write o => exact absurd he (h o)
  | fresh o =>
    have e : ((m.alloc o).put v ⟨(m.vars v).tag, some m.heap.length⟩).vars w = m.vars w := by
      simp [Mem.put, Mem.alloc, Ne.symm hvw]
    unfold Mem.see
    rw [e, look_put, look_alloc m o _ (hm w)]
  | give o => exact look_alloc m o _ (hm w)

/-- A call that stores is seen by whoever has the same pointer. -/
theorem call_shared {m : Mem K} {v w : Nat} (c : K.Call) {o : K.Obj}
    (h : K.eff (m.see v).1 (m.see v).2 c = .write o) (hw : m.vars w = m.vars v) :
    (m.exec (.call v c)).see w = (m.exec (.call v c)).see v := by
  show (m.invoke v c).1.see w = (m.invoke v c).1.see v
  unfold Mem.invoke
  rw [h]
  have e : ∀ x, (m.store (m.vars v).ptr o).vars x = m.vars x := by
    intro x; unfold Mem.store; split <;> rfl
  unfold Mem.see
  rw [e, e, hw]

end

theorem noNil (e : Outside) (t : Ty) : NoNil (cls e t) := by
  intro tg c b
  cases t with
  | inheritance =>
    obtain ⟨s, xs⟩ := c
    cases s <;> intro h <;> cases h
  | days =>
    obtain ⟨s, xs⟩ := c
    cases s <;> intro h <;> cases h
  | _ => intro h; cases h

/-! ## C91 -/

theorem back_filter (s c : Str) :
    Eff.back (K := filter) ((), some s) (filter.eff () (some s) c) =
      ((), Filter.SearchFilter.set (some s) c) := by
  show ((), some (if c.length = 0 then s else c)) = ((), Filter.SearchFilter.set (some s) c)
  unfold Filter.SearchFilter.set
  by_cases h : c.length = 0
  · rw [if_pos h, if_pos h]; rfl
  · rw [if_neg h, if_neg h]

theorem back_attrFilter (a : Filter.Atf) (c : List Filter.AFArg) :
    Eff.back (K := attrFilter) ((), some a) (attrFilter.eff () (some a) c) =
      ((), Filter.AttributeFilter.set (some a) c) := by
  unfold Filter.AttributeFilter.set
  by_cases h : Filter.AttributeFilter.isZero (some a) = true
  · rw [if_pos h]
    exact congrArg (Eff.back (K := attrFilter) ((), some a)) (if_pos h)
  · rw [if_neg h]
    exact congrArg (Eff.back (K := attrFilter) ((), some a)) (if_neg h)

theorem back_pair (k : UInt8) (a : Attr.Cell) (c : List Attr.Arg) :
    Eff.back (K := pair) (k, some a) (pair.eff k (some a) c) =
      ((Attr.ABTV.set ⟨k, some a⟩ c).kw, (Attr.ABTV.set ⟨k, some a⟩ c).cell) := by
  unfold Attr.ABTV.set
  have hz : (Attr.ABTV.isZero ⟨k, some a⟩) = (k == 0) := rfl
  rw [hz]
  by_cases h : k = 0
  · subst h; rfl
  · have hb : (k == 0) = false := by simpa using h
    rw [hb]
    exact congrArg (Eff.back (K := pair) (k, some a)) (if_neg h)

theorem back_bound (rd : Str → Option PB.Store) (r : PB.Store) (c : List PB.SetArg) :
    Eff.back (K := bound rd) ((), some r) ((bound rd).eff () (some r) c) =
      ((), PB.set rd (some r) c) := by
  have hs : PB.storage (some r) =
      if (r.p.isNone && r.b.isNone) = true then ⟨none, none⟩ else r := rfl
  by_cases h : (r.p.isNone && r.b.isNone) = true
  · have hv : PB.set rd (some r) c = some (PB.setAll rd ⟨none, none⟩ c) := by
      unfold PB.set; rw [hs, if_pos h]
    rw [hv]
    exact congrArg (Eff.back (K := bound rd) ((), some r)) (if_pos h)
  · have hv : PB.set rd (some r) c = some (PB.setAll rd r c) := by
      unfold PB.set; rw [hs, if_neg h]
    rw [hv]
    exact congrArg (Eff.back (K := bound rd) ((), some r)) (if_neg h)

theorem back_inheritance (i : Levels.Inh) (b : Bool) (xs : List Levels.Arg) :
    Eff.back (K := inheritance) ((), some i) (inheritance.eff () (some i) (b, xs)) =
      ((), if b then Levels.shift (some i) xs else Levels.unshift (some i) xs) := by
  have hz : Levels.isZero (some i) = i.abtv.isZero := rfl
  unfold Levels.shift Levels.unshift
  rw [hz]
  cases h : i.abtv.isZero
  · have h' : ¬ i.abtv.isZero = true := by simp [h]
    refine (congrArg (Eff.back (K := inheritance) ((), some i)) (if_neg h')).trans ?_
    cases b <;> rfl
  · refine (congrArg (Eff.back (K := inheritance) ((), some i)) (if_pos h)).trans ?_
    cases b <;> rfl

theorem back_after (e : Outside) (t : Ty) (x : (cls e t).Tag × Option (cls e t).Obj)
    (c : (cls e t).Call) : ((cls e t).eff x.1 x.2 c).back x = after e t x c := by
  obtain ⟨tg, o⟩ := x
  cases t with
  | bindDN =>
    cases o with
    | none => rfl
    | some d =>
      obtain ⟨k, t⟩ := d
      cases t <;> rfl
  | targetDN =>
    cases o with
    | none => rfl
    | some d =>
      obtain ⟨k, t⟩ := d
      cases t <;> rfl
  | filter =>
    cases o with
    | none =>
      cases c <;> rfl
    | some s => exact back_filter s c
  | attrFilter =>
    cases o with
    | none => rfl
    | some a => exact back_attrFilter a c
  | permission =>
    obtain ⟨b, xs⟩ := c
    cases o <;> cases b <;> rfl
  | inheritance =>
    obtain ⟨b, xs⟩ := c
    cases o with
    | none => cases b <;> rfl
    | some i => exact back_inheritance i b xs
  | days =>
    obtain ⟨b, xs⟩ := c
    cases o <;> cases b <;> rfl
  | clock => rfl
  | strength => cases o <;> rfl
  | addresses => cases o <;> rfl
  | host => cases o <;> rfl
  | pair =>
    cases o with
    | none => rfl
    | some a => exact back_pair tg a c
  | uri => cases o <;> rfl
  | bound =>
    cases o with
    | none => rfl
    | some r => exact back_bound e.rd r c
  | instruction => cases o <;> rfl

/-- Which calls store through the pointer. -/
theorem write_filled (e : Outside) (t : Ty) (x : (cls e t).Tag × Option (cls e t).Obj)
    (c : (cls e t).Call) (ht : t ≠ .clock) (hx : Filled e t x) :
    ∃ o, (cls e t).eff x.1 x.2 c = .write o := by
  obtain ⟨tg, o⟩ := x
  cases t with
  | bindDN => obtain ⟨d, t, h⟩ := hx; cases h; exact ⟨_, rfl⟩
  | targetDN => obtain ⟨d, t, h⟩ := hx; cases h; exact ⟨_, rfl⟩
  | attrFilter =>
    obtain ⟨a, f, h, hz⟩ := hx
    cases h
    refine ⟨_, if_neg ?_⟩
    rcases hz with ⟨s, rfl, hs⟩ | ⟨s, rfl, hs⟩ <;>
      simp [Filter.AttributeFilter.isZero, Filter.SearchFilter.isZero, Attr.AttributeType.isZero, hs]
  | inheritance =>
    obtain ⟨l, k, a, h, hk⟩ := hx
    cases h
    refine ⟨_, if_neg ?_⟩
    simpa [Attr.ABTV.isZero] using hk
  | pair =>
    obtain ⟨a, h, hk⟩ := hx
    cases h
    exact ⟨_, if_neg hk⟩
  | bound =>
    obtain ⟨s, h, hs⟩ := hx
    cases h
    refine ⟨_, if_neg ?_⟩
    rcases hs with hs | hs
    · cases hp : s.p with
      | none => exact absurd hp hs
      | some q => simp
    · cases hb : s.b with
      | none => rw [hb] at hs; cases hs
      | some b => simp
  | clock => exact absurd rfl ht
  | filter => cases o with
    | none => cases hx
    | some o => exact ⟨_, rfl⟩
  | permission => cases o with
    | none => cases hx
    | some o => exact ⟨_, rfl⟩
  | days => cases o with
    | none => cases hx
    | some o => exact ⟨_, rfl⟩
  | strength => cases o with
    | none => cases hx
    | some o => exact ⟨_, rfl⟩
  | addresses => cases o with
    | none => cases hx
    | some o => exact ⟨_, rfl⟩
  | host => cases o with
    | none => cases hx
    | some o => exact ⟨_, rfl⟩
  | uri => cases o with
    | none => cases hx
    | some o => exact ⟨_, rfl⟩
  | instruction => cases o with
    | none => cases hx
    | some o => exact ⟨_, rfl⟩

theorem filled_write (e : Outside) (t : Ty) (x : (cls e t).Tag × Option (cls e t).Obj)
    (c : (cls e t).Call) (o' : (cls e t).Obj) (h : (cls e t).eff x.1 x.2 c = .write o') :
    Filled e t x := by
  obtain ⟨tg, o⟩ := x
  cases o with
  | none => exact absurd h (noNil e t _ _ _)
  | some o =>
    cases t with
    | bindDN =>
      obtain ⟨k, t⟩ := o
      cases t with
      | none => cases h
      | some t => exact ⟨_, _, rfl⟩
    | targetDN =>
      obtain ⟨k, t⟩ := o
      cases t with
      | none => cases h
      | some t => exact ⟨_, _, rfl⟩
    | attrFilter =>
      obtain ⟨a, f⟩ := o
      refine ⟨a, f, rfl, ?_⟩
      by_cases hz : Filter.AttributeFilter.isZero (some ⟨a, f⟩) = true
      · have h' : attrFilter.eff () (some ⟨a, f⟩) c = .fresh (Filter.Atf.set ⟨none, none⟩ c) := if_pos hz
        exact absurd (h'.symm.trans h) (by intro q; cases q)
      · simp only [Filter.AttributeFilter.isZero, Bool.and_eq_true, Decidable.not_and_iff_or_not] at hz
        rcases hz with hz | hz
        · cases f with
          | none => exact absurd rfl hz
          | some s => exact Or.inl ⟨s, rfl, by rintro rfl; exact hz rfl⟩
        · cases a with
          | none => exact absurd rfl hz
          | some s => exact Or.inr ⟨s, rfl, by rintro rfl; exact hz rfl⟩
    | inheritance =>
      obtain ⟨l, k, a⟩ := o
      obtain ⟨b, xs⟩ := c
      by_cases hz : (⟨k, a⟩ : Attr.ABTV).isZero = true
      · have h' : inheritance.eff () (some ⟨l, k, a⟩) (b, xs) =
            if b then .give (Levels.Inh.shift ⟨0#16, Attr.ABTV.zero⟩ xs) else .keep := if_pos hz
        have h2 := h'.symm.trans h
        cases b <;> cases h2
      · cases a with
        | none => exact absurd rfl hz
        | some a => exact ⟨l, k, a, rfl, by rintro rfl; exact hz rfl⟩
    | pair =>
      refine ⟨o, rfl, ?_⟩
      intro hk
      have h' : pair.eff tg (some o) c = .fresh (Attr.Cell.set ⟨none, .nil⟩ c) := if_pos hk
      exact absurd (h'.symm.trans h) (by intro q; cases q)
    | bound =>
      refine ⟨o, rfl, ?_⟩
      obtain ⟨p, b⟩ := o
      cases p with
      | some p => exact Or.inl (by simp)
      | none =>
        cases b with
        | some b => exact Or.inr rfl
        | none => cases h
    | _ => rfl

theorem pair_made (c : BindKeyword × List Attr.Arg) :
    Alias.pair.make c = ((Attr.mkABTV c.1 c.2).kw, (Attr.mkABTV c.1 c.2).cell) := by
  obtain ⟨k, x⟩ := c
  show (if k = BindUAT ∨ k = BindGAT then (k, some (Attr.Cell.set ⟨none, .nil⟩ x)) else ((0 : BindKeyword), none)) =
    ((Attr.mkABTV k x).kw, (Attr.mkABTV k x).cell)
  rw [Attr.mkABTV]
  by_cases h : k = BindUAT ∨ k = BindGAT
  · rw [if_pos h, if_pos h]; rfl
  · rw [if_neg h, if_neg h]; rfl

theorem make_made (e : Outside) (t : Ty) (c : (cls e t).Ctor) : (cls e t).make c = made e t c := by
  cases t with
  | permission => obtain ⟨b, x⟩ := c; cases b <;> rfl
  | clock => cases c <;> rfl
  | strength => cases c <;> rfl
  | host => cases c <;> rfl
  | pair => exact pair_made c
  | instruction => cases c <;> rfl
  | _ => rfl

/-- **C91** (what is made).  A variable that is given what a constructor makes stands for
what the model of the constructor says, and no other variable stands for anything else
than before. -/
theorem C91_made (e : Outside) (t : Ty) (p : List (Stmt (cls e t))) (v : Nat) (c : (cls e t).Ctor) :
    (((Mem.empty _).run p).exec (.make v c)).see v = made e t c ∧
    ∀ w, w ≠ v → (((Mem.empty _).run p).exec (.make v c)).see w = ((Mem.empty _).run p).see w := by
  have hw := wf_run p
  generalize (Mem.empty (cls e t)).run p = m at hw
  rw [← make_made]
  cases hm : (cls e t).make c with
  | mk g x =>
    cases x with
    | none =>
      have hx : m.exec (.make v c) = m.put v ⟨g, none⟩ := by simp only [Mem.exec, hm]
      rw [hx]
      refine ⟨?_, fun w h => ?_⟩
      · simp [Mem.see, Mem.put, Mem.look]
      · simp [Mem.see, Mem.put, Mem.look, h]
    | some o =>
      have hx : m.exec (.make v c) = (m.alloc o).put v ⟨g, some m.heap.length⟩ := by
        simp only [Mem.exec, hm]
      rw [hx]
      refine ⟨?_, fun w h => ?_⟩
      · simp [Mem.see, Mem.put, Mem.look, Mem.alloc]
      · simp only [Mem.see, Mem.put, Mem.look, Mem.alloc, if_neg h]
        cases hp : (m.vars w).ptr with
        | none => rfl
        | some a => simp [List.getElem?_append_left (hw w a hp)]

/-- **C91** (what a call gives).  Whatever a call returns stands for what the model of its
method says, computed from what the receiver stood for. -/
theorem C91_returned (e : Outside) (t : Ty) (m : Mem (cls e t)) (w v : Nat) (c : (cls e t).Call) :
    (m.exec (.assign w v c)).see w = after e t (m.see v) c := by
  rw [assign_see (noNil e t), back_after]

/-- **C91** (what a call leaves).  After a call the receiver stands for what the model of
the method says, except that `Shift` on an inheritance without an attribute pair leaves
its receiver as it was. -/
theorem C91_receiver (e : Outside) (t : Ty) (p : List (Stmt (cls e t))) (v : Nat)
    (c : (cls e t).Call)
    (h : t = .inheritance → Filled e t (((Mem.empty _).run p).see v)) :
    (((Mem.empty _).run p).exec (.call v c)).see v = after e t (((Mem.empty _).run p).see v) c := by
  rw [call_see (noNil e t) (wf_run p), ← back_after]
  by_cases ht : t = .inheritance
  · subst ht
    obtain ⟨o, ho⟩ := write_filled e .inheritance _ c (by decide) (h rfl)
    rw [ho]; rfl
  · have hg : ∀ o, (cls e t).eff (((Mem.empty _).run p).see v).1 (((Mem.empty _).run p).see v).2 c ≠
        .give o := by
      intro o
      generalize ((Mem.empty _).run p).see v = x
      obtain ⟨tg, y⟩ := x
      clear h
      cases t with
      | inheritance => exact absurd rfl ht
      | days =>
        obtain ⟨b, xs⟩ := c
        cases y <;> cases b <;> intro q <;> cases q
      | bindDN =>
        cases y with
        | none => intro q; cases q
        | some d => obtain ⟨k, t⟩ := d; cases t <;> intro q <;> cases q
      | targetDN =>
        cases y with
        | none => intro q; cases q
        | some d => obtain ⟨k, t⟩ := d; cases t <;> intro q <;> cases q
      | attrFilter =>
        cases y with
        | none => intro q; cases q
        | some a =>
          intro q
          by_cases hz : Filter.AttributeFilter.isZero (some a) = true
          · exact absurd ((if_pos hz).symm.trans q) (by intro r; cases r)
          · exact absurd ((if_neg hz).symm.trans q) (by intro r; cases r)
      | pair =>
        cases y with
        | none => intro q; cases q
        | some a =>
          intro q
          by_cases hz : tg = (0 : UInt8)
          · exact absurd ((if_pos hz).symm.trans q) (by intro r; cases r)
          · exact absurd ((if_neg hz).symm.trans q) (by intro r; cases r)
      | bound =>
        cases y with
        | none => intro q; cases q
        | some a =>
          intro q
          obtain ⟨p, b⟩ := a
          cases p <;> cases b <;> cases q
      | _ => cases y <;> intro q <;> cases q
    cases he : (cls e t).eff (((Mem.empty _).run p).see v).1 (((Mem.empty _).run p).see v).2 c with
    | give o => exact absurd he (hg o)
    | _ => rfl

/-- **C91** (inheritances that are not set).  Neither `Shift` nor `Unshift` on an inheritance
without an attribute pair is seen by its receiver, or by any other variable. -/
theorem C91_inheritance (e : Outside) (p : List (Stmt (cls e .inheritance))) (v w : Nat)
    (c : (cls e .inheritance).Call) (h : ¬ Filled e .inheritance (((Mem.empty _).run p).see v)) :
    (((Mem.empty _).run p).exec (.call v c)).see w = ((Mem.empty _).run p).see w := by
  by_cases hvw : v = w
  · subst hvw
    rw [call_see (noNil e .inheritance) (wf_run p)]
    revert h
    generalize ((Mem.empty (cls e .inheritance)).run p).see v = x
    intro h
    obtain ⟨tg, o⟩ := x
    obtain ⟨b, xs⟩ := c
    cases o with
    | none => cases b <;> rfl
    | some i =>
      cases hz : i.abtv.isZero with
      | false =>
        exact absurd (filled_write e .inheritance (tg, some i) (b, xs) _
          (if_neg (by simp [hz]))) h
      | true =>
        refine (congrArg (Eff.left (K := inheritance) (tg, some i)) (if_pos hz)).trans ?_
        cases b <;> rfl
  · exact call_other (wf_run p) hvw c fun o ho => h (filled_write e .inheritance _ c o ho)

/-- **C91** (unset receivers).  A call on a variable that is not set changes what no other
variable stands for. -/
theorem C91_unset (e : Outside) (t : Ty) (p : List (Stmt (cls e t))) (v w : Nat)
    (c : (cls e t).Call) (hvw : v ≠ w) (h : ¬ Filled e t (((Mem.empty _).run p).see v)) :
    (((Mem.empty _).run p).exec (.call v c)).see w = ((Mem.empty _).run p).see w :=
  call_other (wf_run p) hvw c fun o ho => h (filled_write e t _ c o ho)

/-- **C91** (copies).  After `w = v`, a call on either of the two variables changes both
alike, if the value was set and its type is not `TimeOfDay`. -/
theorem C91_copies (e : Outside) (t : Ty) (ht : t ≠ .clock) (p : List (Stmt (cls e t)))
    (v w : Nat) (c : (cls e t).Call) (h : Filled e t (((Mem.empty _).run p).see v)) :
    let m := ((Mem.empty _).run p).exec (.copy w v)
    ((m.exec (.call v c)).see w = after e t (((Mem.empty _).run p).see v) c ∧
      (m.exec (.call v c)).see v = after e t (((Mem.empty _).run p).see v) c) ∧
    ((m.exec (.call w c)).see v = after e t (((Mem.empty _).run p).see v) c ∧
      (m.exec (.call w c)).see w = after e t (((Mem.empty _).run p).see v) c) := by
  intro m
  have hv : m.vars v = ((Mem.empty _).run p).vars v := by
    show (if v = w then _ else _) = _
    split <;> rfl
  have hw : m.vars w = ((Mem.empty _).run p).vars v := by
    show (if w = w then _ else _) = _
    rw [if_pos rfl]
  have sv : m.see v = ((Mem.empty _).run p).see v := by
    unfold Mem.see; rw [hv]; rfl
  have sw : m.see w = ((Mem.empty _).run p).see v := by
    unfold Mem.see; rw [hw]; rfl
  have hm : m.Wf := by
    have := wf_run (p ++ [Stmt.copy w v])
    rwa [show (Mem.empty (cls e t)).run (p ++ [Stmt.copy w v]) = m from List.foldl_append ..] at this
  obtain ⟨o, ho⟩ := write_filled e t _ c ht h
  have ha : after e t (((Mem.empty _).run p).see v) c = ((((Mem.empty _).run p).see v).1, some o) := by
    rw [← back_after, ho]; rfl
  have cv : (m.exec (.call v c)).see v = after e t (((Mem.empty _).run p).see v) c := by
    rw [call_see (noNil e t) hm, sv, ho, ha]; rfl
  have cw : (m.exec (.call w c)).see w = after e t (((Mem.empty _).run p).see v) c := by
    rw [call_see (noNil e t) hm, sw, ho, ha]; rfl
  refine ⟨⟨?_, cv⟩, ?_, cw⟩
  · rw [call_shared (o := o) c (by rw [sv]; exact ho) (hw.trans hv.symm)]; exact cv
  · rw [call_shared (o := o) c (by rw [sw]; exact ho) (hv.trans hw.symm)]; exact cw

/-- **C91** (partial).  What a variable stands for depends only on the statements about
variables that were never copied from or to anything outside a set it belongs to.
Missing for the full claim: copies share storage, see `C91_copies`. -/
theorem C91_apart_partial (e : Outside) (t : Ty) (p : List (Stmt (cls e t))) (W : Nat → Bool)
    (hp : Closed W p) (w : Nat) (hw : W w = true) :
    ((Mem.empty _).run p).see w = ((Mem.empty _).run (p.filter (Stmt.within W))).see w := by
  obtain ⟨σ, h⟩ := Sim.run p hp (Sim.start (K := cls e t) W)
  exact h.see hw

/-! ### Which types keep their copies apart -/

theorem apart_of_kept {K : Cls} (h : Kept K) : Apart K := by
  intro p v w c hvw
  have h1 := h p [.call v c] w
  have e : (((Mem.empty K).run p).exec (.call v c)).vars w = ((Mem.empty K).run p).vars w := by
    show (((Mem.empty K).run p).invoke v c).1.vars w = _
    unfold Mem.invoke
    split
    · rfl
    · unfold Mem.store; split <;> rfl
    · simp [Mem.put, Mem.alloc, Ne.symm hvw]
    · rfl
  unfold Mem.see at h1 ⊢
  rw [e]
  exact h1

theorem kept_of_noWrite {K : Cls} (hK : ∀ t o c b, K.eff t o c ≠ .write b) : Kept K := by
  intro p q v
  have key : ∀ (q : List (Stmt K)) (m : Mem K), ∃ l, (m.run q).heap = m.heap ++ l := by
    intro q
    induction q with
    | nil => exact fun m => ⟨[], by simp [Mem.run]⟩
    | cons s q ih =>
      intro m
      have h1 : ∃ l, (m.exec s).heap = m.heap ++ l := by
        have hi : ∀ v c, ∃ l, (m.invoke v c).1.heap = m.heap ++ l := by
          intro v c
          unfold Mem.invoke
          cases he : K.eff (m.see v).1 (m.see v).2 c with
          | keep => exact ⟨[], by simp⟩
          | write o => exact absurd he (hK _ _ _ _)
          | fresh o => exact ⟨[o], rfl⟩
          | give o => exact ⟨[o], rfl⟩
        cases s with
        | zero v => exact ⟨[], by simp [Mem.exec, Mem.put]⟩
        | make v x =>
          simp only [Mem.exec]
          split
          · exact ⟨[], by simp [Mem.put]⟩
          · exact ⟨_, rfl⟩
        | copy w v => exact ⟨[], by simp [Mem.exec, Mem.put]⟩
        | call v c => exact hi v c
        | assign w v c => exact hi v c
      obtain ⟨l, hl⟩ := h1
      obtain ⟨l', hl'⟩ := ih (m.exec s)
      refine ⟨l ++ l', ?_⟩
      show ((m.exec s).run q).heap = _
      rw [hl', hl, List.append_assoc]
  obtain ⟨l, hl⟩ := key q ((Mem.empty K).run p)
  unfold Mem.see Mem.look
  rw [hl]
  cases hp : (((Mem.empty K).run p).vars v).ptr with
  | none => rfl
  | some a =>
    show (_, _) = (_, _)
    have := wf_run p v a hp
    simp [List.getElem?_append_left this]

/-- One value, one copy of it and one call, after which `f` reads something else from the
copy. -/
theorem not_apart {K : Cls} (x : K.Ctor) (c : K.Call) {β : Type} (f : Option K.Obj → β) (a b : β)
    (ha : f (((Mem.empty K).run [.make 0 x, .copy 1 0]).see 1).2 = a)
    (hb : f ((((Mem.empty K).run [.make 0 x, .copy 1 0]).exec (.call 0 c)).see 1).2 = b)
    (hab : a ≠ b) : ¬ Apart K :=
  fun h => hab (by rw [← ha, ← hb, h _ 0 1 c (by decide)])

theorem kept_clock : Kept clock := kept_of_noWrite (by intro t o c b h; cases h)

/-- **C91** (which types).  A call on one variable never changes another one for
`TimeOfDay`, and for no other type. -/
theorem C91_only_clock (e : Outside) (t : Ty) : Apart (cls e t) ↔ t = .clock := by
  constructor
  · intro h
    cases t with
    | clock => rfl
    | bindDN =>
      exact absurd h (not_apart (K := bindDN) (BindUDN, b!"all") (b!"cn=x", []) DN.BindDN.string
        b!"ldap:///all" b!"ldap:///cn=x" rfl rfl (by decide))
    | targetDN =>
      exact absurd h (not_apart (K := targetDN) (Target, b!"cn=a") (b!"cn=x", []) DN.TargetDN.string
        b!"ldap:///cn=a" b!"ldap:///cn=x" rfl rfl (by decide))
    | filter =>
      exact absurd h (not_apart (K := filter) b!"(a=b)" b!"(c=d)" Filter.SearchFilter.string
        b!"(a=b)" b!"(c=d)" rfl rfl (by decide))
    | attrFilter =>
      exact absurd h (not_apart (K := attrFilter) [.str b!"cn"] [.str b!"sn"]
        (fun o => o.bind fun a => a.at_) (some b!"cn") (some b!"sn") rfl rfl (by decide))
    | permission =>
      exact absurd h (not_apart (K := permission e.S) (true, []) (true, [.right 1#16])
        (fun o => o.map fun p => p.bits) (some 0#16) (some 1#16) rfl
        (congrArg some (by decide : (0#16 ||| 1#16 : BitVec 16) = 1#16)) (by decide))
    | inheritance =>
      exact absurd h (not_apart (K := inheritance) (⟨BindUAT, some ⟨none, .nil⟩⟩, [])
        (true, [.level 2#16]) (fun o => o.map fun i => i.levels) (some 0#16) (some 2#16)
        (by decide +kernel) (by decide +kernel) (by decide))
    | days =>
      exact absurd h (not_apart (K := days) [] (true, [.day 2#8])
        (β := Option (BitVec 8)) id (some 0#8) (some 2#8)
        rfl rfl (by decide))
    | strength =>
      exact absurd h (not_apart (K := strength) none (.int 5) (β := Option (Option UInt8)) id (some none) (some (some 4))
        rfl rfl (by decide))
    | addresses =>
      exact absurd h (not_apart (K := addresses) [] [b!"10.1"] (β := Option (List Str)) id (some []) (some [b!"10.1"])
        rfl (congrArg some (by decide +kernel : Net.ipSet [] [b!"10.1"] = [b!"10.1"])) (by decide))
    | host =>
      exact absurd h (not_apart (K := host) [] [b!"a"] (β := Option (List Str)) id (some []) (some [b!"a"])
        rfl (congrArg some (by decide +kernel : Net.labelsSet [] [b!"a"] = [b!"a"])) (by decide))
    | pair =>
      exact absurd h (not_apart (K := pair) (BindUAT, []) [.str b!"cn"]
        (fun o => o.bind fun a => a.at_) none (some (some b!"cn")) rfl rfl (by decide))
    | uri =>
      exact absurd h (not_apart (K := uri e.eq) [] [.part (.scope 1)]
        (fun o => o.map fun u => u.scope) (some 0) (some 1) rfl rfl (by decide))
    | bound =>
      exact absurd h (not_apart (K := bound e.rd) (some ⟨true, 0#16⟩, some (.rules .and false []))
        [.perm (some ⟨false, 0#16⟩)] (fun o => o.bind fun s => s.p.map fun c => c.disp)
        (some true) (some false) rfl rfl (by decide))
    | instruction =>
      exact absurd h (not_apart (K := instruction e.w e.rd) [] [.str b!"a"]
        (fun o => o.map fun b => b.acl) (some []) (some b!"a") rfl rfl (by decide))
  · rintro rfl
    exact apart_of_kept kept_clock

/-- The claim: a call on one variable changes what no other variable stands for. -/
def C91_claim : Prop := ∀ (e : Outside) (t : Ty), Apart (cls e t)

/-- Everything outside /repo, for the examples. -/
def plainOutside : Outside :=
  ⟨.anyRef 16, EqualFold.ref.eq, PB.plainWorld, fun _ => none⟩

/-- **C91** fails: `d := AllDN; d.Set("cn=x")` changes what `AllDN` stands for. -/
theorem C91_counterexample : ¬ C91_claim := by
  intro h
  have := (C91_only_clock plainOutside .bindDN).mp (h _ _)
  cases this

/-! ## C92 -/

/-- The claim: what a rule or list was made from stays as it was. -/
def C92_claim : Prop := ∀ (e : Outside) (t : Ty), Kept (cls e t)

/-- **C92** (which types).  What was read from a variable stays the same through any
further program for `TimeOfDay`, and for no other type. -/
theorem C92_only_clock (e : Outside) (t : Ty) : Kept (cls e t) ↔ t = .clock := by
  constructor
  · exact fun h => (C91_only_clock e t).mp (apart_of_kept h)
  · rintro rfl; exact kept_clock

/-- **C92** fails. -/
theorem C92_counterexample : ¬ C92_claim := by
  intro h
  have := (C92_only_clock plainOutside .bindDN).mp (h _ _)
  cases this

theorem kept_quiet {K : Cls} (p q : List (Stmt K)) (W : Nat → Bool)
    (hp : Closed W p) (hq : Closed W q) (hc : Quiet W q) (v : Nat) (hv : W v = true) :
    (((Mem.empty K).run p).run q).look (((Mem.empty K).run p).vars v) =
      ((Mem.empty K).run p).see v := by
  have h := Holds.run q hq hc (Holds.start p hp)
  unfold Mem.see Mem.look
  cases hp : (((Mem.empty K).run p).vars v).ptr with
  | none => rfl
  | some a =>
    show (_, _) = (_, _)
    simp [(h.same a ⟨v, hv, hp⟩).2]

/-- **C92** (partial).  What was read from a variable stays the same through any further
program that calls no method on variables of a set it belongs to and no copies of which
are outside.  Missing for the full claim: calls through copies, see `C91_copies`. -/
theorem C92_kept_partial (e : Outside) (t : Ty) (p q : List (Stmt (cls e t))) (W : Nat → Bool)
    (hp : Closed W p) (hq : Closed W q) (hc : Quiet W q) (v : Nat) (hv : W v = true) :
    (((Mem.empty _).run p).run q).look (((Mem.empty _).run p).vars v) =
      ((Mem.empty _).run p).see v := kept_quiet p q W hp hq hc v hv

/-- **C92** (rules, when made).  A rule made from a name holds the name. -/
theorem C92_rule_made (m : Mem bindDN) (op : Cop) (v : Nat) :
    (dnRule m op v).now m = Builders.bindDNCond op (m.see v).2 := by
  unfold DNRule.now dnRule
  by_cases h : (Builders.bindDNCond op (m.see v).2).isZero = true
  · rw [if_pos h]
  · rw [if_neg h]
    have hz : DN.isZero (m.see v).2 = false := by
      cases hd : DN.isZero (m.see v).2 with
      | false => rfl
      | true => exact absurd (by unfold Builders.bindDNCond; rw [if_pos hd]; rfl) h
    have e : (Builders.bindDNCond op (m.see v).2).ex = .dn (m.see v).2 := by
      unfold Builders.bindDNCond
      rw [if_neg (by rw [hz]; decide)]
      rfl
    rw [show m.look (m.vars v) = m.see v from rfl, ← e]

/-- The texts of a rule that holds a name. -/
def nameTexts : Bind.BExpr → List Str
  | .dn d => [DN.BindDN.string d]
  | _ => []

/-- The claim: a rule made from a name keeps its text. -/
def C92_rules_claim : Prop :=
  ∀ (p q : List (Stmt bindDN)) (op : Cop) (v : Nat),
    ((dnRule ((Mem.empty _).run p) op v).now (((Mem.empty _).run p).run q)).text nameTexts =
      ((dnRule ((Mem.empty _).run p) op v).now ((Mem.empty _).run p)).text nameTexts

/-- **C92** (rules).  The rule `AllDN.Eq()` says `userdn = "ldap:///all"`; after
`d := AllDN; d.Set("cn=x", BindGDN)` it says `userdn = "ldap:///cn=x"`, about a name that
has become a group's. -/
theorem C92_rule_changes :
    let m := (Mem.empty bindDN).run [.make 0 (BindUDN, b!"all")]
    let m' := m.run [.copy 1 0, .call 1 (b!"cn=x", [BindGDN])]
    ((dnRule m Eq' 0).now m).text nameTexts = b!"userdn = \"ldap:///all\"" ∧
    ((dnRule m Eq' 0).now m').text nameTexts = b!"userdn = \"ldap:///cn=x\"" ∧
    DN.keyword (m'.see 0).2 = some BindGDN := by
  refine ⟨by decide +kernel, by decide +kernel, by decide +kernel⟩

/-- **C92** fails for rules. -/
theorem C92_rules_counterexample : ¬ C92_rules_claim := by
  intro h
  obtain ⟨h1, h2, _⟩ := C92_rule_changes
  have := h [.make 0 (BindUDN, b!"all")] [.copy 1 0, .call 1 (b!"cn=x", [BindGDN])] Eq' 0
  rw [h1, h2] at this
  exact absurd this (by decide)

/-- **C92** (rules, partial).  A rule made from a name keeps everything it says through
any program that calls no method on the name or its copies.  Missing: such calls, see
`C92_rule_changes`. -/
theorem C92_rules_partial (p q : List (Stmt bindDN)) (op : Cop) (W : Nat → Bool)
    (hp : Closed W p) (hq : Closed W q) (hc : Quiet W q) (v : Nat) (hv : W v = true) :
    (dnRule ((Mem.empty _).run p) op v).now (((Mem.empty _).run p).run q) =
      Builders.bindDNCond op (((Mem.empty _).run p).see v).2 := by
  rw [← C92_rule_made]
  unfold DNRule.now
  have := kept_quiet p q W hp hq hc v hv
  rw [show (dnRule ((Mem.empty _).run p) op v).ref = ((Mem.empty _).run p).vars v from rfl, this]
  rfl

/-! ### Lists of names -/

theorem pushNames_value (eq : Str → Str → Bool) (m : Mem bindDN) (kw : BindKeyword)
    (vs : List Nat) (es : List (Ref bindDN)) :
    (pushNames eq m kw es vs).map (fun r => DNList.BEntry.dn (nameAt m r)) =
      DNList.pushLoop eq kw (es.map fun r => DNList.BEntry.dn (nameAt m r))
        (vs.map fun v => DNList.BArg.dn (nameAt m (m.vars v))) := by
  induction vs generalizing es with
  | nil => rfl
  | cons v vs ih =>
    unfold pushNames
    simp only [List.map_cons, DNList.pushLoop, DNList.pushBindArg]
    by_cases h : (!DN.isZero (nameAt m (m.vars v)) && DN.keyword (nameAt m (m.vars v)) == some kw) = true
    · rw [if_pos h, if_pos h]
      simp only [DNList.pushEntry, DNList.containsText, List.map_map, List.any_map]
      by_cases hc : es.any (fun r => eq (DN.BindDN.string (nameAt m r)) (DN.BindDN.string (nameAt m (m.vars v)))) = true
      · rw [if_pos hc, ih]
        have hc' : es.any ((fun t => eq t (DNList.BEntry.dn (nameAt m (m.vars v))).string) ∘
            DNList.BEntry.string ∘ fun r => DNList.BEntry.dn (nameAt m r)) = true := hc
        rw [if_pos hc']
      · rw [if_neg hc, ih]
        have hc' : ¬ es.any ((fun t => eq t (DNList.BEntry.dn (nameAt m (m.vars v))).string) ∘
            DNList.BEntry.string ∘ fun r => DNList.BEntry.dn (nameAt m r)) = true := hc
        rw [if_neg hc', List.map_append]
        rfl
    · rw [if_neg h, if_neg h]

/-- **C92** (lists, when made).  A list made from variables holds what the model of lists
says, made from what the variables stand for. -/
theorem C92_list_made (eq : Str → Str → Bool) (m : Mem bindDN) (kw : BindKeyword) (vs : List Nat) :
    (pushNames eq m kw [] vs).map (fun r => DNList.BEntry.dn (nameAt m r)) =
      (DNList.mkBDNs eq kw (vs.map fun v => DNList.BArg.dn (nameAt m (m.vars v)))).entries :=
  pushNames_value eq m kw vs []

theorem pushNames_good (F : EqualFold) (m : Mem bindDN) (kw : BindKeyword) (vs : List Nat)
    (es : List (Ref bindDN)) (h : GoodNames F kw (es.map fun r => (nameAt m r))) :
    GoodNames F kw ((pushNames F.eq m kw es vs).map fun r => (nameAt m r)) := by
  induction vs generalizing es with
  | nil => exact h
  | cons v vs ih =>
    unfold pushNames
    split
    · next hk =>
      split
      · exact ih es h
      · next hc =>
        refine ih _ ?_
        rw [List.map_append]
        refine ⟨?_, ?_⟩
        · intro d hd
          rcases List.mem_append.mp hd with hd | hd
          · exact h.1 d hd
          · have hd' : d = (nameAt m (m.vars v)) := by simpa using hd
            subst hd'
            obtain ⟨h1, h2⟩ := Bool.and_eq_true_iff.mp hk
            cases hs : (nameAt m (m.vars v)) with
            | none => rw [hs] at h1; exact absurd h1 (by decide)
            | some d =>
              obtain ⟨k, t⟩ := d
              rw [hs] at h1 h2
              cases t with
              | none => exact absurd h1 (by simp [DN.isZero])
              | some t =>
                have : k = kw := by simpa [DN.keyword] using h2
                subst this
                exact ⟨t, rfl⟩
        · rw [List.pairwise_append]
          refine ⟨h.2, by simp, ?_⟩
          intro a ha b hb
          have hb' : b = (nameAt m (m.vars v)) := by simpa using hb
          subst hb'
          obtain ⟨r, hr, rfl⟩ := List.mem_map.mp ha
          cases he : F.eq (DN.BindDN.string (nameAt m r)) (DN.BindDN.string (nameAt m (m.vars v))) with
          | false => rfl
          | true => exact absurd (List.any_eq_true.mpr ⟨r, hr, he⟩) hc
    · exact h

theorem pushNames_mem (eq : Str → Str → Bool) (m : Mem bindDN) (kw : BindKeyword) (vs : List Nat)
    (es : List (Ref bindDN)) :
    ∀ r ∈ pushNames eq m kw es vs, r ∈ es ∨ ∃ v ∈ vs, r = m.vars v := by
  induction vs generalizing es with
  | nil => intro r hr; exact Or.inl hr
  | cons v vs ih =>
    intro r hr
    unfold pushNames at hr
    split at hr
    · split at hr
      · rcases ih es r hr with h | ⟨u, hu, rfl⟩
        · exact Or.inl h
        · exact Or.inr ⟨u, List.mem_cons_of_mem _ hu, rfl⟩
      · rcases ih _ r hr with h | ⟨u, hu, rfl⟩
        · rcases List.mem_append.mp h with h | h
          · exact Or.inl h
          · exact Or.inr ⟨v, List.mem_cons_self, by simpa using h⟩
        · exact Or.inr ⟨u, List.mem_cons_of_mem _ hu, rfl⟩
    · exact Or.inl hr

/-- The claim: a list of names stays uniform and free of duplicates whatever is done
later. -/
def C92_lists_claim : Prop :=
  ∀ (F : EqualFold) (kw : BindKeyword) (p q : List (Stmt bindDN)) (vs : List Nat),
    GoodNames F kw ((pushNames F.eq ((Mem.empty _).run p) kw [] vs).map fun r =>
      nameAt (((Mem.empty _).run p).run q) r)

/-- **C92** (lists).  `a := UDN("cn=a"); b := UDN("cn=b"); l := UDNs(a, b);
b.Set("cn=a")`: the list now holds the same name twice. -/
theorem C92_list_twice (F : EqualFold) :
    let m := (Mem.empty bindDN).run [.make 0 (BindUDN, b!"cn=a"), .make 1 (BindUDN, b!"cn=b")]
    let m' := m.run [.call 1 (b!"cn=a", [])]
    (pushNames F.eq m BindUDN [] [0, 1]).map (fun r => DN.BindDN.string (nameAt m r)) =
      [b!"ldap:///cn=a", b!"ldap:///cn=b"] ∧
    (pushNames F.eq m BindUDN [] [0, 1]).map (fun r => DN.BindDN.string (nameAt m' r)) =
      [b!"ldap:///cn=a", b!"ldap:///cn=a"] := by
  intro m m'
  have hne : F.eq b!"ldap:///cn=a" b!"ldap:///cn=b" = false := by
    cases h : F.eq b!"ldap:///cn=a" b!"ldap:///cn=b" with
    | false => rfl
    | true => exact absurd ((F.ascii _ _ (by decide)).mp h) (by decide +kernel)
  have hl : pushNames F.eq m BindUDN [] [0, 1] = [⟨(), some 0⟩, ⟨(), some 1⟩] := by
    have h1 : pushNames F.eq m BindUDN [] [0, 1] = pushNames F.eq m BindUDN [⟨(), some 0⟩] [1] := rfl
    rw [h1]
    unfold pushNames
    rw [if_pos (by rfl)]
    have hf : (([⟨(), some 0⟩] : List (Ref bindDN)).any fun r =>
        F.eq (DN.BindDN.string (nameAt m r)) (DN.BindDN.string (nameAt m (m.vars 1)))) = false := by
      show (F.eq b!"ldap:///cn=a" b!"ldap:///cn=b" || false) = false
      rw [hne]; rfl
    rw [hf]
    rfl
  rw [hl]
  exact ⟨rfl, rfl⟩

/-- **C92** fails for lists. -/
theorem C92_lists_counterexample : ¬ C92_lists_claim := by
  intro h
  have h1 := (h EqualFold.ref BindUDN [.make 0 (BindUDN, b!"cn=a"), .make 1 (BindUDN, b!"cn=b")]
    [.call 1 (b!"cn=a", [])] [0, 1]).2
  have h2 := (C92_list_twice EqualFold.ref).2
  have h3 := h1.map (S := fun a b => EqualFold.ref.eq a b = false) DN.BindDN.string fun a b hab => hab
  have h4 : ([b!"ldap:///cn=a", b!"ldap:///cn=a"] : List Str).Pairwise
      (fun a b => EqualFold.ref.eq a b = false) := h2 ▸ (List.map_map ▸ h3)
  have h5 := (List.pairwise_cons.mp h4).1 _ List.mem_cons_self
  rw [EqualFold.ref.refl] at h5
  cases h5

/-- **C92** (lists, partial).  A list made from variables is uniform, free of duplicates
and the same as when it was made through any program that calls no method on these
variables or their copies.  Missing: such calls, see `C92_list_twice`. -/
theorem C92_lists_partial (F : EqualFold) (kw : BindKeyword) (p q : List (Stmt bindDN))
    (W : Nat → Bool) (hp : Closed W p) (hq : Closed W q) (hc : Quiet W q) (vs : List Nat)
    (hv : ∀ v ∈ vs, W v = true) :
    let l := pushNames F.eq ((Mem.empty _).run p) kw [] vs
    (l.map fun r => nameAt (((Mem.empty _).run p).run q) r) =
      (l.map fun r => nameAt ((Mem.empty _).run p) r) ∧
    GoodNames F kw (l.map fun r => nameAt (((Mem.empty _).run p).run q) r) := by
  intro l
  have hl : (l.map fun r => nameAt (((Mem.empty _).run p).run q) r) =
      (l.map fun r => nameAt ((Mem.empty _).run p) r) := by
    apply List.map_congr_left
    intro r hr
    rcases pushNames_mem F.eq _ kw vs [] r hr with h | ⟨v, hm, rfl⟩
    · cases h
    · exact congrArg Prod.snd (kept_quiet p q W hp hq hc v (hv v hm))
  refine ⟨hl, ?_⟩
  rw [hl]
  exact pushNames_good F _ kw vs [] ⟨(fun d hd => nomatch hd), List.Pairwise.nil⟩

/-! ## The hypotheses can be met -/

/-- A copy of a name, a call on the copy, and an unrelated name. -/
def prog : List (Stmt bindDN) :=
  [.make 0 (BindUDN, b!"all"), .make 5 (BindGDN, b!"cn=g"), .copy 1 0, .call 1 (b!"cn=x", [])]

-- the receiver and the copied variable both say the new thing, the unrelated one does not
example : DN.BindDN.string (((Mem.empty bindDN).run prog).see 0).2 = b!"ldap:///cn=x" ∧
    DN.BindDN.string (((Mem.empty bindDN).run prog).see 1).2 = b!"ldap:///cn=x" ∧
    DN.BindDN.string (((Mem.empty bindDN).run prog).see 5).2 = b!"ldap:///cn=g" := by
  refine ⟨by decide +kernel, by decide +kernel, by decide +kernel⟩

-- C91_made: a new host name next to an old one
example : (((Mem.empty host).run [.make 0 [b!"a", b!"b"], .make 1 [b!"c"]]).see 0).2 = some [b!"a", b!"b"] ∧
    (((Mem.empty host).run [.make 0 [b!"a", b!"b"], .make 1 [b!"c"]]).see 1).2 = some [b!"c"] :=
  ⟨rfl, rfl⟩

-- C91_copies: its value is set
example : Filled plainOutside .bindDN (((Mem.empty bindDN).run prog).see 0) :=
  ⟨BindUDN, b!"cn=x", rfl⟩

-- C91_receiver: inheritances made with a pair are set
example : Filled plainOutside .inheritance
    (((Mem.empty inheritance).run [.make 0 (⟨1, some ⟨some (some b!"manager"), .av (some b!"Tom")⟩⟩, [.int 2])]).see 0) :=
  ⟨_, _, _, rfl, by decide⟩

-- C91_inheritance: a declared inheritance is not set, although `Shift` on it gives something
example : ¬ Filled plainOutside .inheritance (((Mem.empty inheritance).run [.zero 0]).see 0) ∧
    (((Mem.empty inheritance).exec (.assign 1 0 (true, [.int 2]))).see 1).2.isSome = true := by
  refine ⟨?_, rfl⟩
  rintro ⟨l, k, a, h, -⟩
  cases h

-- C91_unset: a declared variable is not set, although another one is
example : ¬ Filled plainOutside .bindDN (((Mem.empty bindDN).run (prog ++ [.zero 7])).see 7) := by
  rintro ⟨d, t, h⟩
  cases h

-- C91_apart_partial: the unrelated name and the two sharing variables form closed sets
example : Closed (fun v => v == 5) prog ∧
    prog.filter (Stmt.within fun v => v == 5) = [.make 5 (BindGDN, b!"cn=g")] := by
  refine ⟨?_, rfl⟩
  intro s hs v hv w hw
  simp only [prog, List.mem_cons, List.not_mem_nil, or_false] at hs
  rcases hs with rfl | rfl | rfl | rfl <;>
    simp only [Stmt.names, List.mem_cons, List.not_mem_nil, or_false] at hv hw
  · subst hv hw; rfl
  · subst hv hw; rfl
  · rcases hv with rfl | rfl <;> rcases hw with rfl | rfl <;> rfl
  · subst hv hw; rfl

-- C92_kept_partial, C92_rules_partial, C92_lists_partial: the second half of a program
-- may copy the names and call methods on others
example : Closed (fun v => v == 0 || v == 1) ([.copy 1 0, .call 5 (b!"cn=h", [])] : List (Stmt bindDN)) ∧
    Quiet (fun v => v == 0 || v == 1) ([.copy 1 0, .call 5 (b!"cn=h", [])] : List (Stmt bindDN)) := by
  refine ⟨?_, ?_⟩
  · intro s hs v hv w hw
    simp only [List.mem_cons, List.not_mem_nil, or_false] at hs
    rcases hs with rfl | rfl <;>
      simp only [Stmt.names, List.mem_cons, List.not_mem_nil, or_false] at hv hw
    · rcases hv with rfl | rfl <;> rcases hw with rfl | rfl <;> rfl
    · subst hv hw; rfl
  · intro s hs v hv
    simp only [List.mem_cons, List.not_mem_nil, or_false] at hs
    rcases hs with rfl | rfl
    · cases hv
    · cases hv; rfl

-- C92_list_made, C92_lists_partial: a list of two names out of three
example : (pushNames EqualFold.ref.eq ((Mem.empty bindDN).run
    [.make 0 (BindUDN, b!"cn=a"), .make 1 (BindUDN, b!"CN=A"), .make 2 (BindUDN, b!"cn=b")])
    BindUDN [] [0, 1, 2]).map (nameAt ((Mem.empty bindDN).run
    [.make 0 (BindUDN, b!"cn=a"), .make 1 (BindUDN, b!"CN=A"), .make 2 (BindUDN, b!"cn=b")])) =
    [some ⟨BindUDN, some b!"cn=a"⟩, some ⟨BindUDN, some b!"cn=b"⟩] := by decide +kernel

end Verif.Alias
