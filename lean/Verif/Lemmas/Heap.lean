import Verif.Spec.Heap
import Verif.Lemmas.Target
import Verif.Props.PB

/-!
# What statements about instructions in memory leave alone
-/

namespace Verif.Heap
open Verif Verif.Bind Verif.Rules Verif.PB

/-- The storage is the same in both memories. -/
def Same (m m' : Mem) : Cell → Prop
  | .perm a => m'.perms[a]? = m.perms[a]?
  | .ctx a => m'.ctxs[a]? = m.ctxs[a]?
  | .pbr a => m'.pbrs[a]? = m.pbrs[a]?
  | .plist a => m'.plists[a]? = m.plists[a]?
  | .trule a => m'.trules[a]? = m.trules[a]?
  | .tlist a => m'.tlists[a]? = m.tlists[a]?
  | .ins a => m'.inss[a]? = m.inss[a]?
  | .ilist a => m'.ilists[a]? = m.ilists[a]?

/-- The storage is there. -/
def There (m : Mem) : Cell → Prop
  | .perm a => a < m.perms.length
  | .ctx a => a < m.ctxs.length
  | .pbr a => a < m.pbrs.length
  | .plist a => a < m.plists.length
  | .trule a => a < m.trules.length
  | .tlist a => a < m.tlists.length
  | .ins a => a < m.inss.length
  | .ilist a => a < m.ilists.length

theorem Same.refl (m : Mem) (c : Cell) : Same m m c := by cases c <;> exact rfl

theorem Same.trans {m m' m'' : Mem} {c : Cell} (h : Same m m' c) (h' : Same m' m'' c) : Same m m'' c := by
  cases c <;> exact Eq.trans h' h

theorem get_append {α : Type} {l : List α} {a : Nat} (h : a < l.length) (l' : List α) :
    (l ++ l')[a]? = l[a]? := List.getElem?_append_left h

theorem get_modify_ne {α : Type} (l : List α) (f : α → α) {a b : Nat} (h : b ≠ a) :
    (l.modify a f)[b]? = l[b]? := by
  rw [List.getElem?_modify]
  cases l[b]? with
  | none => rfl
  | some c => simp [Ne.symm h]

theorem get_modify_eq {α : Type} {l : List α} (f : α → α) {a : Nat} {x : α} (h : l[a]? = some x) :
    (l.modify a f)[a]? = some (f x) := by
  rw [List.getElem?_modify, h]; simp

theorem mem_modify {α : Type} {l : List α} {f : α → α} {a : Nat} {y : α} (h : y ∈ l.modify a f) :
    y ∈ l ∨ ∃ x, l[a]? = some x ∧ y = f x := by
  obtain ⟨b, hb⟩ := List.getElem?_of_mem h
  by_cases hab : b = a
  · subst hab
    cases hx : l[b]? with
    | none => rw [List.getElem?_modify, hx] at hb; cases hb
    | some x => rw [get_modify_eq f hx] at hb; cases hb; exact Or.inr ⟨x, rfl, rfl⟩
  · rw [get_modify_ne l f hab] at hb
    exact Or.inl (List.mem_of_getElem? hb)

/-! ## What is left alone -/

theorem same_pushT (o : Outside) (m : Mem) (l : Nat) (xs : List (Option Nat)) (c : Cell) (h : c ≠ .tlist l) :
    Same m (m.pushT o l xs) c := by
  cases c <;> first | exact rfl | exact get_modify_ne _ _ (fun e => h (by rw [e]))

theorem same_pushP (o : Outside) (m : Mem) (l : Nat) (xs : List (Option Nat)) (c : Cell) (h : c ≠ .plist l) :
    Same m (m.pushP o l xs) c := by
  cases c <;> first | exact rfl | exact get_modify_ne _ _ (fun e => h (by rw [e]))

theorem same_pushI (o : Outside) (m : Mem) (l : Nat) (xs : List (Option Nat)) (c : Cell) (h : c ≠ .ilist l) :
    Same m (m.pushI o l xs) c := by
  cases c <;> first | exact rfl | exact get_modify_ne _ _ (fun e => h (by rw [e]))

theorem same_foldl {β : Type} (f : Mem → β → Mem) (c : Cell) (h : ∀ m b, Same m (f m b) c) (xs : List β)
    (m : Mem) : Same m (xs.foldl f m) c := by
  induction xs generalizing m with
  | nil => exact Same.refl m c
  | cons x xs ih => exact (h m x).trans (ih (f m x))

theorem same_assert1 (o : Outside) (i t p : Nat) (m : Mem) (x : ISet) (c : Cell) (h1 : c ≠ .ins i)
    (h2 : c ≠ .tlist t) (h3 : c ≠ .plist p) : Same m (m.assert1 o i t p x) c := by
  cases x with
  | str s => cases c <;> first | exact rfl | exact get_modify_ne _ _ (fun e => h1 (by rw [e]))
  | trs l =>
    cases l with
    | none => exact Same.refl m c
    | some l =>
      simp only [Mem.assert1]
      refine same_foldl _ c ?_ _ m
      intro m a
      by_cases hk : matchTKW (TargetKeyword.string (Held.at_ m.trules a).keyword) ≠ 0
      · rw [if_pos hk]; exact same_pushT o m t _ c h2
      · rw [if_neg hk]; exact Same.refl m c
  | tr a => exact same_pushT o m t _ c h2
  | pbr a => exact same_pushP o m p _ c h3
  | pbrs l =>
    cases l with
    | none => exact Same.refl m c
    | some l =>
      simp only [Mem.assert1]
      exact same_foldl _ c (fun m a => same_pushP o m p _ c h3) _ m
  | other => exact Same.refl m c

theorem same_setI (o : Outside) (i t p : Nat) (m : Mem) (xs : List ISet) (c : Cell) (h1 : c ≠ .ins i)
    (h2 : c ≠ .tlist t) (h3 : c ≠ .plist p) : Same m (m.setI o i t p xs) c :=
  same_foldl _ c (fun m x => same_assert1 o i t p m x c h1 h2 h3) xs m

/-- A statement leaves alone what it does not write. -/
theorem same_exec (o : Outside) (m : Mem) (s : Stmt) (c : Cell) (hc : There m c) (hw : ¬ Writes m s c) :
    Same m (m.exec o s) c := by
  cases s with
  | perm d xs => cases c <;> first | exact rfl | exact get_append hc _
  | shift a xs => cases c <;> first | exact rfl | exact get_modify_ne _ _ (fun e => hw (by rw [e]; rfl))
  | unshift a xs => cases c <;> first | exact rfl | exact get_modify_ne _ _ (fun e => hw (by rw [e]; rfl))
  | ctx b => cases c <;> first | exact rfl | exact get_append hc _
  | ctxTo a b => cases c <;> first | exact rfl | exact get_modify_ne _ _ (fun e => hw (by rw [e]; rfl))
  | pbr p b =>
    simp only [Mem.exec]
    split
    · cases c <;> first | exact rfl | exact get_append hc _
    · exact Same.refl m c
  | pbrNew xs => cases c <;> first | exact rfl | exact get_append hc _
  | pbrSet a xs =>
    simp only [Mem.exec]
    split
    · cases c <;> first | exact rfl | exact get_append hc _
    · cases c <;> first | exact rfl | exact get_modify_ne _ _ (fun e => hw (by rw [e]; rfl))
  | plist xs => cases c <;> first | exact rfl | exact get_append hc _
  | ppush l xs => exact same_pushP o m l xs c hw
  | ppop l => cases c <;> first | exact rfl | exact get_modify_ne _ _ (fun e => hw (by rw [e]; rfl))
  | trule kw op ex => cases c <;> first | exact rfl | exact get_append hc _
  | tset a x => cases c <;> first | exact rfl | exact get_modify_ne _ _ (fun e => hw (by rw [e]; rfl))
  | tlist xs => cases c <;> first | exact rfl | exact get_append hc _
  | tpush l xs => exact same_pushT o m l xs c hw
  | tpop l => cases c <;> first | exact rfl | exact get_modify_ne _ _ (fun e => hw (by rw [e]; rfl))
  | aci xs =>
    refine Same.trans (m' := { m with
      inss := m.inss ++ [⟨[], m.tlists.length, m.plists.length⟩]
      tlists := m.tlists ++ [[]]
      plists := m.plists ++ [[]] }) ?_ (same_setI o _ _ _ _ xs c ?_ ?_ ?_)
    · cases c <;> first | exact rfl | exact get_append hc _
    · rintro rfl; exact Nat.lt_irrefl _ hc
    · rintro rfl; exact Nat.lt_irrefl _ hc
    · rintro rfl; exact Nat.lt_irrefl _ hc
  | iset i xs =>
    simp only [Mem.exec]
    cases hi : m.inss[i]? with
    | none => exact Same.refl m c
    | some d =>
      refine same_setI o i d.t d.p m xs c ?_ ?_ ?_
      · rintro rfl; exact hw (Or.inl rfl)
      · rintro rfl; exact hw (Or.inr ⟨d, hi, Or.inl rfl⟩)
      · rintro rfl; exact hw (Or.inr ⟨d, hi, Or.inr rfl⟩)
  | ilist xs =>
    refine Same.trans (m' := { m with ilists := m.ilists ++ [[]] }) ?_ (same_pushI o _ _ xs c ?_)
    · cases c <;> first | exact rfl | exact get_append hc _
    · rintro rfl; exact Nat.lt_irrefl _ hc
  | ipush l xs => exact same_pushI o m l xs c hw
  | ipop l => cases c <;> first | exact rfl | exact get_modify_ne _ _ (fun e => hw (by rw [e]; rfl))

/-! ## What is seen depends on what is read -/

theorem seeP_same {m m' : Mem} {a : Nat} (h : ∀ c, ReadsP m a c → Same m m' c) : m'.seeP a = m.seeP a := by
  have ha : m'.pbrs[a]? = m.pbrs[a]? := h (.pbr a) rfl
  simp only [Mem.seeP, ha]
  cases hd : m.pbrs[a]? with
  | none => rfl
  | some d =>
    have hp : (d.p.bind fun q => m'.perms[q]?) = d.p.bind fun q => m.perms[q]? := by
      cases hq : d.p with
      | none => rfl
      | some q => exact h (.perm q) ⟨d, hd, hq⟩
    have hb : (d.b.bind fun b => m'.ctxs[b]?) = d.b.bind fun b => m.ctxs[b]? := by
      cases hq : d.b with
      | none => rfl
      | some b => exact h (.ctx b) ⟨d, hd, hq⟩
    simp only [Option.map_some, hp, hb]

theorem seeI_same {m m' : Mem} {i : Nat} (h : ∀ c, Reads m i c → Same m m' c) : m'.seeI i = m.seeI i := by
  have hi : m'.inss[i]? = m.inss[i]? := h (.ins i) .ins
  simp only [Mem.seeI, hi]
  cases hd : m.inss[i]? with
  | none => rfl
  | some d =>
    have ht : m'.seeT d.t = m.seeT d.t := by
      have hl : m'.tlists[d.t]? = m.tlists[d.t]? := h (.tlist d.t) (.tlist hd)
      simp only [Mem.seeT, hl]
      cases he : m.tlists[d.t]? with
      | none => rfl
      | some es =>
        refine List.map_congr_left fun a ha => ?_
        have : m'.trules[a]? = m.trules[a]? := h (.trule a) (.trule hd he ha)
        simp only [Held.at_, this]
    have hp : m'.seePs d.p = m.seePs d.p := by
      have hl : m'.plists[d.p]? = m.plists[d.p]? := h (.plist d.p) (.plist hd)
      simp only [Mem.seePs, hl]
      cases he : m.plists[d.p]? with
      | none => rfl
      | some es =>
        refine List.map_congr_left fun a ha => seeP_same fun c hc => ?_
        have hr := Reads.pbr hd he ha
        cases c with
        | pbr b => cases hc; exact h _ hr
        | perm q => obtain ⟨e, h1, h2⟩ := hc; exact h _ (.perm hr h1 h2)
        | ctx b => obtain ⟨e, h1, h2⟩ := hc; exact h _ (.ctx hr h1 h2)
        | _ => exact absurd hc (by simp [ReadsP])
    simp only [Option.map_some, ht, hp]

/-! ## What is stored is there -/

structure Wf (m : Mem) : Prop where
  p : ∀ d ∈ m.pbrs, ∀ q, d.p = some q → q < m.perms.length
  b : ∀ d ∈ m.pbrs, ∀ b, d.b = some b → b < m.ctxs.length
  plist : ∀ es ∈ m.plists, ∀ a ∈ es, ∃ q b, m.pbrs[a]? = some ⟨some q, some b⟩
  tlist : ∀ es ∈ m.tlists, ∀ a ∈ es, a < m.trules.length
  ins : ∀ c ∈ m.inss, c.t < m.tlists.length ∧ c.p < m.plists.length
  ilist : ∀ es ∈ m.ilists, ∀ i ∈ es, i < m.inss.length
  apart : ∀ (i j : Nat) (c d : ICell), m.inss[i]? = some c → m.inss[j]? = some d → c.t = d.t ∨ c.p = d.p → i = j

theorem wf_empty : Wf Mem.empty where
  p := by intro d h; cases h
  b := by intro d h; cases h
  plist := by intro d h; cases h
  tlist := by intro d h; cases h
  ins := by intro d h; cases h
  ilist := by intro d h; cases h
  apart := by intro i j c d h; simp [Mem.empty] at h

theorem there_reads {m : Mem} (hm : Wf m) {i : Nat} (hi : i < m.inss.length) {c : Cell} (h : Reads m i c) :
    There m c := by
  induction h with
  | ins => exact hi
  | tlist h => exact (hm.ins _ (List.mem_of_getElem? h)).1
  | trule h h1 h2 => exact hm.tlist _ (List.mem_of_getElem? h1) _ h2
  | plist h => exact (hm.ins _ (List.mem_of_getElem? h)).2
  | pbr h h1 h2 =>
    obtain ⟨q, b, hq⟩ := hm.plist _ (List.mem_of_getElem? h1) _ h2
    exact (List.getElem?_eq_some_iff.1 hq).1
  | perm _ h1 h2 _ => exact hm.p _ (List.mem_of_getElem? h1) _ h2
  | ctx _ h1 h2 _ => exact hm.b _ (List.mem_of_getElem? h1) _ h2

theorem there_readsP {m : Mem} (hm : Wf m) {a : Nat} (ha : a < m.pbrs.length) {c : Cell} (h : ReadsP m a c) :
    There m c := by
  cases c with
  | pbr b => cases h; exact ha
  | perm q => obtain ⟨e, h1, h2⟩ := h; exact hm.p _ (List.mem_of_getElem? h1) _ h2
  | ctx b => obtain ⟨e, h1, h2⟩ := h; exact hm.b _ (List.mem_of_getElem? h1) _ h2
  | _ => exact absurd h (by simp [ReadsP])

/-- A permission bind rule that is accepted has both parts. -/
theorem acceptP_parts {o : Outside} {m : Mem} {es : List Nat} {x : Option Nat} {a : Nat}
    (h : m.acceptP o es x = some a) :
    x = some a ∧ (∃ q b, m.pbrs[a]? = some ⟨some q, some b⟩) ∧
      PB.accept o.w (fun _ => none) (es.map m.seeP) (.rule (m.seeP a)) = some (m.seeP a) := by
  cases x with
  | none => cases h
  | some x =>
    simp only [Mem.acceptP] at h
    by_cases hc : (PB.accept o.w (fun _ => none) (es.map m.seeP) (.rule (m.seeP x))).isSome = true
    · rw [if_pos hc] at h
      obtain rfl := Option.some.inj h
      have hv : valid (m.seeP x) = true ∧
          PB.accept o.w (fun _ => none) (es.map m.seeP) (.rule (m.seeP x)) = some (m.seeP x) := by
        simp only [PB.accept, acceptType] at hc ⊢
        by_cases h1 : contains o.w (fun _ => none) (es.map m.seeP) (.rule (m.seeP x)) = true
        · rw [if_pos h1] at hc; cases hc
        · rw [if_neg h1] at hc ⊢
          by_cases h2 : valid (m.seeP x) = true
          · rw [if_pos h2]; exact ⟨h2, rfl⟩
          · rw [if_neg h2] at hc; cases hc
      refine ⟨rfl, ?_, hv.2⟩
      obtain ⟨c, b, he⟩ := (valid_iff _).1 hv.1
      simp only [Mem.seeP, Option.map_eq_some_iff] at he
      obtain ⟨d, hd, he⟩ := he
      injection he with e1 e2
      cases d with
      | mk p q =>
        cases p with
        | none => cases e1
        | some p =>
          cases q with
          | none => cases e2
          | some q => exact ⟨p, q, hd⟩
    · rw [if_neg hc] at h; cases h

/-- A target rule that is accepted is there. -/
theorem acceptT_there {h : List TRule} {es : List Nat} {x : Option Nat} {a : Nat}
    (ha : Held.accept h es x = some a) : x = some a ∧ a < h.length := by
  cases x with
  | none => cases ha
  | some x =>
    simp only [Held.accept] at ha
    by_cases hc : (acceptTR (es.map (Held.at_ h)) (.rule (Held.at_ h x))).isSome = true
    · rw [if_pos hc] at ha
      obtain rfl := Option.some.inj ha
      refine ⟨rfl, ?_⟩
      by_cases hl : x < h.length
      · exact hl
      · have : Held.at_ h x = badTargetRule := by
          simp only [Held.at_, List.getElem?_eq_none (Nat.le_of_not_lt hl), Option.getD_none]
        rw [this, accept_not _ (fun k hk => absurd hk.1 (by decide))] at hc
        cases hc
    · rw [if_neg hc] at ha; cases ha

theorem acceptI_there {o : Outside} {m : Mem} {es : List Nat} {x : Option Nat} {i : Nat}
    (h : m.acceptI o es x = some i) : x = some i ∧ i < m.inss.length := by
  cases x with
  | none => cases h
  | some x =>
    simp only [Mem.acceptI] at h
    by_cases hc : (Ins.accept o.w (es.map m.seeI) (.ins (m.seeI x))).isSome = true
    · rw [if_pos hc] at h
      obtain rfl := Option.some.inj h
      refine ⟨rfl, ?_⟩
      by_cases hl : x < m.inss.length
      · exact hl
      · have : m.seeI x = none := by
          simp only [Mem.seeI, List.getElem?_eq_none (Nat.le_of_not_lt hl), Option.map_none]
        rw [this] at hc
        simp only [Ins.accept, Ins.acceptType, Ins.valid, Option.isSome_none, Bool.false_eq_true, if_false] at hc
        split at hc <;> cases hc
    · rw [if_neg hc] at h; cases h

theorem pushes_inv {A E : Type} {P : List E → Prop} {stop : Bool} {accept : List E → A → Option E}
    (h : ∀ es x e, P es → accept es x = some e → P (es ++ [e])) (xs : List A) {es : List E} (hp : P es) :
    P (xs.foldl (fun es x => stackPush stop accept es [x]) es) := by
  induction xs generalizing es with
  | nil => exact hp
  | cons x xs ih => exact ih (stackPush_inv h [x] hp)

theorem wf_pushT (o : Outside) {m : Mem} (hm : Wf m) (l : Nat) (xs : List (Option Nat)) : Wf (m.pushT o l xs) where
  p := hm.p
  b := hm.b
  plist := hm.plist
  tlist := by
    intro es hes a ha
    rcases mem_modify hes with h | ⟨es', h1, rfl⟩
    · exact hm.tlist es h a ha
    · refine stackPush_inv (P := fun es => ∀ a ∈ es, a < m.trules.length) ?_ xs
        (hm.tlist es' (List.mem_of_getElem? h1)) a ha
      intro es x e hp hacc b hb
      rcases List.mem_append.1 hb with hb | hb
      · exact hp b hb
      · simp only [List.mem_singleton] at hb
        subst hb
        exact (acceptT_there hacc).2
  ins := by
    intro c hc
    show c.t < (m.tlists.modify _ _).length ∧ _
    rw [List.length_modify]
    exact hm.ins c hc
  ilist := hm.ilist
  apart := hm.apart

theorem wf_pushP (o : Outside) {m : Mem} (hm : Wf m) (l : Nat) (xs : List (Option Nat)) : Wf (m.pushP o l xs) where
  p := hm.p
  b := hm.b
  plist := by
    intro es hes a ha
    rcases mem_modify hes with h | ⟨es', h1, rfl⟩
    · exact hm.plist es h a ha
    · refine pushes_inv (P := fun es => ∀ a ∈ es, ∃ q b, m.pbrs[a]? = some ⟨some q, some b⟩) ?_ xs
        (hm.plist es' (List.mem_of_getElem? h1)) a ha
      intro es x e hp hacc b hb
      rcases List.mem_append.1 hb with hb | hb
      · exact hp b hb
      · simp only [List.mem_singleton] at hb
        subst hb
        exact (acceptP_parts hacc).2.1
  tlist := hm.tlist
  ins := by
    intro c hc
    show _ ∧ c.p < (m.plists.modify _ _).length
    rw [List.length_modify]
    exact hm.ins c hc
  ilist := hm.ilist
  apart := hm.apart

theorem wf_pushI (o : Outside) {m : Mem} (hm : Wf m) (l : Nat) (xs : List (Option Nat)) : Wf (m.pushI o l xs) where
  p := hm.p
  b := hm.b
  plist := hm.plist
  tlist := hm.tlist
  ins := hm.ins
  ilist := by
    intro es hes a ha
    rcases mem_modify hes with h | ⟨es', h1, rfl⟩
    · exact hm.ilist es h a ha
    · refine pushes_inv (P := fun es => ∀ a ∈ es, a < m.inss.length) ?_ xs
        (hm.ilist es' (List.mem_of_getElem? h1)) a ha
      intro es x e hp hacc b hb
      rcases List.mem_append.1 hb with hb | hb
      · exact hp b hb
      · simp only [List.mem_singleton] at hb
        subst hb
        exact (acceptI_there hacc).2
  apart := hm.apart

theorem wf_foldl {β : Type} (f : Mem → β → Mem) (h : ∀ m b, Wf m → Wf (f m b)) (xs : List β) {m : Mem}
    (hm : Wf m) : Wf (xs.foldl f m) := by
  induction xs generalizing m with
  | nil => exact hm
  | cons x xs ih => exact ih (h m x hm)

theorem wf_label {m : Mem} (hm : Wf m) (i : Nat) (f : ICell → ICell) (hf : ∀ c, (f c).t = c.t ∧ (f c).p = c.p) :
    Wf { m with inss := m.inss.modify i f } where
  p := hm.p
  b := hm.b
  plist := hm.plist
  tlist := hm.tlist
  ins := by
    intro c hc
    rcases mem_modify hc with h | ⟨d, h1, rfl⟩
    · exact hm.ins c h
    · rw [(hf d).1, (hf d).2]; exact hm.ins d (List.mem_of_getElem? h1)
  ilist := by
    intro es hes a ha
    show a < (m.inss.modify i f).length
    rw [List.length_modify]; exact hm.ilist es hes a ha
  apart := by
    have key : ∀ (j : Nat) (c : ICell), (m.inss.modify i f)[j]? = some c → ∃ d : ICell, m.inss[j]? = some d ∧ c.t = d.t ∧ c.p = d.p := by
      intro j c h
      by_cases hj : j = i
      · subst hj
        cases hx : m.inss[j]? with
        | none => rw [List.getElem?_modify, hx] at h; cases h
        | some d => rw [get_modify_eq f hx] at h; cases h; exact ⟨d, rfl, hf d⟩
      · rw [get_modify_ne _ _ hj] at h; exact ⟨c, h, rfl, rfl⟩
    intro a b c d hc hd h
    obtain ⟨c', h1, h2, h3⟩ := key a c hc
    obtain ⟨d', h4, h5, h6⟩ := key b d hd
    refine hm.apart a b c' d' h1 h4 ?_
    rw [← h2, ← h3, ← h5, ← h6]; exact h

theorem wf_assert1 (o : Outside) (i t p : Nat) {m : Mem} (hm : Wf m) (x : ISet) : Wf (m.assert1 o i t p x) := by
  cases x with
  | str s =>
    refine wf_label hm i _ fun c => ?_
    split <;> exact ⟨rfl, rfl⟩
  | trs l =>
    cases l with
    | none => exact hm
    | some l =>
      simp only [Mem.assert1]
      refine wf_foldl _ ?_ _ hm
      intro m a hm
      by_cases hk : matchTKW (TargetKeyword.string (Held.at_ m.trules a).keyword) ≠ 0
      · rw [if_pos hk]; exact wf_pushT o hm _ _
      · rw [if_neg hk]; exact hm
  | tr a => exact wf_pushT o hm _ _
  | pbr a => exact wf_pushP o hm _ _
  | pbrs l =>
    cases l with
    | none => exact hm
    | some l =>
      simp only [Mem.assert1]
      exact wf_foldl _ (fun m a hm => wf_pushP o hm _ _) _ hm
  | other => exact hm

theorem wf_setI (o : Outside) (i t p : Nat) {m : Mem} (hm : Wf m) (xs : List ISet) : Wf (m.setI o i t p xs) :=
  wf_foldl _ (fun _ x hm => wf_assert1 o i t p hm x) xs hm

/-- What `Set` stores is there; parts that were set stay set. -/
theorem setP_there {m : Mem} (xs : List PSet) {c : PCell} (h1 : ∀ q, c.p = some q → q < m.perms.length)
    (h2 : ∀ b, c.b = some b → b < m.ctxs.length) :
    (∀ q, (m.setP c xs).p = some q → q < m.perms.length) ∧ (∀ b, (m.setP c xs).b = some b → b < m.ctxs.length) ∧
      (c.p.isSome = true → (m.setP c xs).p.isSome = true) ∧ (c.b.isSome = true → (m.setP c xs).b.isSome = true) := by
  induction xs generalizing c with
  | nil => exact ⟨h1, h2, id, id⟩
  | cons x xs ih =>
    cases x with
    | perm a =>
      cases a with
      | none => exact ⟨h1, h2, id, id⟩
      | some q =>
        simp only [Mem.setP]
        by_cases hq : (m.perms[q]?).isSome = true
        · rw [if_pos hq]
          obtain ⟨i1, i2, i3, i4⟩ := ih (c := { c with p := some q }) (fun q' h => by
            cases h
            by_cases hl : q < m.perms.length
            · exact hl
            · rw [List.getElem?_eq_none (Nat.le_of_not_lt hl)] at hq; cases hq) h2
          exact ⟨i1, i2, fun _ => i3 rfl, i4⟩
        · rw [if_neg hq]; exact ⟨h1, h2, id, id⟩
    | ctx b =>
      simp only [Mem.setP]
      cases hb : m.ctxs[b]? with
      | none => exact ⟨h1, h2, id, id⟩
      | some t =>
        simp only
        by_cases hv : ctxValid t = true
        · rw [if_pos hv]
          obtain ⟨i1, i2, i3, i4⟩ := ih (c := { c with b := some b }) h1 (fun b' h => by
            cases h
            exact (List.getElem?_eq_some_iff.1 hb).1)
          exact ⟨i1, i2, i3, fun _ => i4 rfl⟩
        · rw [if_neg hv]; exact ⟨h1, h2, id, id⟩
    | other => exact ih h1 h2

theorem wf_perms {m : Mem} (hm : Wf m) (l : List Rights.Cell) (h : m.perms.length ≤ l.length) :
    Wf { m with perms := l } where
  p := fun d hd q hq => Nat.lt_of_lt_of_le (hm.p d hd q hq) h
  b := hm.b
  plist := hm.plist
  tlist := hm.tlist
  ins := hm.ins
  ilist := hm.ilist
  apart := hm.apart

theorem wf_ctxs {m : Mem} (hm : Wf m) (l : List BCtx) (h : m.ctxs.length ≤ l.length) :
    Wf { m with ctxs := l } where
  p := hm.p
  b := fun d hd q hq => Nat.lt_of_lt_of_le (hm.b d hd q hq) h
  plist := hm.plist
  tlist := hm.tlist
  ins := hm.ins
  ilist := hm.ilist
  apart := hm.apart

theorem wf_trules {m : Mem} (hm : Wf m) (l : List TRule) (h : m.trules.length ≤ l.length) :
    Wf { m with trules := l } where
  p := hm.p
  b := hm.b
  plist := hm.plist
  tlist := fun es hes a ha => Nat.lt_of_lt_of_le (hm.tlist es hes a ha) h
  ins := hm.ins
  ilist := hm.ilist
  apart := hm.apart

theorem wf_newP {m : Mem} (hm : Wf m) (c : PCell) (h1 : ∀ q, c.p = some q → q < m.perms.length)
    (h2 : ∀ b, c.b = some b → b < m.ctxs.length) : Wf { m with pbrs := m.pbrs ++ [c] } where
  p := by
    intro d hd q hq
    rcases List.mem_append.1 hd with hd | hd
    · exact hm.p d hd q hq
    · simp only [List.mem_singleton] at hd; subst hd; exact h1 q hq
  b := by
    intro d hd q hq
    rcases List.mem_append.1 hd with hd | hd
    · exact hm.b d hd q hq
    · simp only [List.mem_singleton] at hd; subst hd; exact h2 q hq
  plist := by
    intro es hes a ha
    obtain ⟨q, b, h⟩ := hm.plist es hes a ha
    exact ⟨q, b, by rw [← h]; exact get_append (List.getElem?_eq_some_iff.1 h).1 _⟩
  tlist := hm.tlist
  ins := hm.ins
  ilist := hm.ilist
  apart := hm.apart

theorem wf_exec (o : Outside) {m : Mem} (hm : Wf m) (s : Stmt) : Wf (m.exec o s) := by
  have hnil : ∀ xs, Wf { m with pbrs := m.pbrs ++ [m.setP ⟨none, none⟩ xs] } := by
    intro xs
    have h := setP_there (m := m) xs (c := ⟨none, none⟩) (fun q h => by cases h) (fun q h => by cases h)
    exact wf_newP hm _ h.1 h.2.1
  cases s with
  | perm d xs => exact wf_perms hm _ (by simp)
  | shift a xs => exact wf_perms hm _ (by simp)
  | unshift a xs => exact wf_perms hm _ (by simp)
  | ctx b => exact wf_ctxs hm _ (by simp)
  | ctxTo a b => exact wf_ctxs hm _ (by simp)
  | pbr p b =>
    simp only [Mem.exec]
    split
    · next hv =>
      obtain ⟨c, t, he⟩ := (valid_iff _).1 hv
      have he := Option.some.inj he
      injection he with e1 e2
      refine wf_newP hm _ (fun q hq => ?_) (fun q hq => ?_)
      · simp only at hq
        rw [hq] at e1
        exact (List.getElem?_eq_some_iff.1 e1).1
      · simp only at hq
        rw [hq] at e2
        exact (List.getElem?_eq_some_iff.1 e2).1
    · exact hm
  | pbrNew xs => exact hnil xs
  | pbrSet a xs =>
    simp only [Mem.exec]
    split
    · exact hnil xs
    · exact {
        p := by
          intro d hd q hq
          rcases mem_modify hd with hd | ⟨c, h1, rfl⟩
          · exact hm.p d hd q hq
          · exact (setP_there xs (hm.p c (List.mem_of_getElem? h1)) (hm.b c (List.mem_of_getElem? h1))).1 q hq
        b := by
          intro d hd q hq
          rcases mem_modify hd with hd | ⟨c, h1, rfl⟩
          · exact hm.b d hd q hq
          · exact (setP_there xs (hm.p c (List.mem_of_getElem? h1)) (hm.b c (List.mem_of_getElem? h1))).2.1 q hq
        plist := by
          intro es hes x hx
          obtain ⟨q, b, h⟩ := hm.plist es hes x hx
          by_cases hxa : x = a
          · subst hxa
            have hs := setP_there xs (hm.p _ (List.mem_of_getElem? h)) (hm.b _ (List.mem_of_getElem? h))
            have h3 := hs.2.2.1 rfl
            have h4 := hs.2.2.2 rfl
            rw [Option.isSome_iff_exists] at h3 h4
            obtain ⟨q', h3⟩ := h3
            obtain ⟨b', h4⟩ := h4
            refine ⟨q', b', ?_⟩
            show (m.pbrs.modify x _)[x]? = _
            rw [get_modify_eq _ h, ← h3, ← h4]
          · exact ⟨q, b, by rw [← h]; exact get_modify_ne _ _ hxa⟩
        tlist := hm.tlist
        ins := hm.ins
        ilist := hm.ilist
        apart := hm.apart }
  | plist xs =>
    exact {
      p := hm.p
      b := hm.b
      plist := by
        intro es hes a ha
        rcases List.mem_append.1 hes with hes | hes
        · exact hm.plist es hes a ha
        · simp only [List.mem_singleton] at hes
          subst hes
          refine stackPush_inv (P := fun es => ∀ a ∈ es, ∃ q b, m.pbrs[a]? = some ⟨some q, some b⟩) ?_ xs
            (by intro a h; cases h) a ha
          intro es x e hp hacc b hb
          rcases List.mem_append.1 hb with hb | hb
          · exact hp b hb
          · simp only [List.mem_singleton] at hb
            subst hb
            exact (acceptP_parts hacc).2.1
      tlist := hm.tlist
      ins := fun c hc => ⟨(hm.ins c hc).1, by
        show c.p < (m.plists ++ _).length
        rw [List.length_append]; exact Nat.lt_of_lt_of_le (hm.ins c hc).2 (Nat.le_add_right _ _)⟩
      ilist := hm.ilist
      apart := hm.apart }
  | ppush l xs => exact wf_pushP o hm l xs
  | ppop l =>
    exact {
      p := hm.p
      b := hm.b
      plist := by
        intro es hes a ha
        rcases mem_modify hes with h | ⟨es', h1, rfl⟩
        · exact hm.plist es h a ha
        · exact hm.plist es' (List.mem_of_getElem? h1) a (List.dropLast_subset _ ha)
      tlist := hm.tlist
      ins := fun c hc => ⟨(hm.ins c hc).1, by
        show c.p < (m.plists.modify _ _).length
        rw [List.length_modify]; exact (hm.ins c hc).2⟩
      ilist := hm.ilist
      apart := hm.apart }
  | trule kw op ex => exact wf_trules hm _ (by simp)
  | tset a c => exact wf_trules hm _ (by simp)
  | tlist xs =>
    exact {
      p := hm.p
      b := hm.b
      plist := hm.plist
      tlist := by
        intro es hes a ha
        rcases List.mem_append.1 hes with hes | hes
        · exact hm.tlist es hes a ha
        · simp only [List.mem_singleton] at hes
          subst hes
          refine stackPush_inv (P := fun es => ∀ a ∈ es, a < m.trules.length) ?_ xs
            (by intro a h; cases h) a ha
          intro es x e hp hacc b hb
          rcases List.mem_append.1 hb with hb | hb
          · exact hp b hb
          · simp only [List.mem_singleton] at hb
            subst hb
            exact (acceptT_there hacc).2
      ins := fun c hc => ⟨by
        show c.t < (m.tlists ++ _).length
        rw [List.length_append]; exact Nat.lt_of_lt_of_le (hm.ins c hc).1 (Nat.le_add_right _ _),
        (hm.ins c hc).2⟩
      ilist := hm.ilist
      apart := hm.apart }
  | tpush l xs => exact wf_pushT o hm l xs
  | tpop l =>
    exact {
      p := hm.p
      b := hm.b
      plist := hm.plist
      tlist := by
        intro es hes a ha
        rcases mem_modify hes with h | ⟨es', h1, rfl⟩
        · exact hm.tlist es h a ha
        · exact hm.tlist es' (List.mem_of_getElem? h1) a (List.dropLast_subset _ ha)
      ins := fun c hc => ⟨by
        show c.t < (m.tlists.modify _ _).length
        rw [List.length_modify]; exact (hm.ins c hc).1, (hm.ins c hc).2⟩
      ilist := hm.ilist
      apart := hm.apart }
  | aci xs =>
    refine wf_setI o _ _ _ ?_ xs
    exact {
      p := hm.p
      b := hm.b
      plist := by
        intro es hes a ha
        rcases List.mem_append.1 hes with hes | hes
        · exact hm.plist es hes a ha
        · simp only [List.mem_singleton] at hes; subst hes; cases ha
      tlist := by
        intro es hes a ha
        rcases List.mem_append.1 hes with hes | hes
        · exact hm.tlist es hes a ha
        · simp only [List.mem_singleton] at hes; subst hes; cases ha
      ins := by
        intro c hc
        show c.t < (m.tlists ++ _).length ∧ c.p < (m.plists ++ _).length
        simp only [List.length_append, List.length_singleton]
        rcases List.mem_append.1 hc with hc | hc
        · have := hm.ins c hc; omega
        · simp only [List.mem_singleton] at hc; subst hc; simp
      ilist := by
        intro es hes a ha
        show a < (m.inss ++ _).length
        have := hm.ilist es hes a ha
        simp only [List.length_append]; omega
      apart := by
        have key : ∀ (j : Nat) (c : ICell), (m.inss ++ [⟨[], m.tlists.length, m.plists.length⟩])[j]? = some c →
            (m.inss[j]? = some c ∧ c.t < m.tlists.length ∧ c.p < m.plists.length) ∨
            (j = m.inss.length ∧ c.t = m.tlists.length ∧ c.p = m.plists.length) := by
          intro j c h
          by_cases hj : j < m.inss.length
          · rw [get_append hj] at h
            exact Or.inl ⟨h, hm.ins c (List.mem_of_getElem? h)⟩
          · right
            have hl := (List.getElem?_eq_some_iff.1 h).1
            simp only [List.length_append, List.length_singleton] at hl
            have hj' : j = m.inss.length := by omega
            subst hj'
            rw [List.getElem?_append_right (Nat.le_refl _), Nat.sub_self] at h
            simp only [List.getElem?_cons_zero, Option.some.injEq] at h
            subst h
            exact ⟨rfl, rfl, rfl⟩
        intro a b c d hc hd h
        rcases key a c hc with ⟨h1, h2, h3⟩ | ⟨h1, h2, h3⟩ <;> rcases key b d hd with ⟨h4, h5, h6⟩ | ⟨h4, h5, h6⟩
        · exact hm.apart a b c d h1 h4 h
        · omega
        · omega
        · omega }
  | iset i xs =>
    simp only [Mem.exec]
    cases m.inss[i]? with
    | none => exact hm
    | some c => exact wf_setI o i c.t c.p hm xs
  | ilist xs =>
    refine wf_pushI o ?_ _ xs
    exact {
      p := hm.p
      b := hm.b
      plist := hm.plist
      tlist := hm.tlist
      ins := hm.ins
      ilist := by
        intro es hes a ha
        rcases List.mem_append.1 hes with hes | hes
        · exact hm.ilist es hes a ha
        · simp only [List.mem_singleton] at hes; subst hes; cases ha
      apart := hm.apart }
  | ipush l xs => exact wf_pushI o hm l xs
  | ipop l =>
    exact {
      p := hm.p
      b := hm.b
      plist := hm.plist
      tlist := hm.tlist
      ins := hm.ins
      ilist := by
        intro es hes a ha
        rcases mem_modify hes with h | ⟨es', h1, rfl⟩
        · exact hm.ilist es h a ha
        · exact hm.ilist es' (List.mem_of_getElem? h1) a (List.dropLast_subset _ ha)
      apart := hm.apart }

theorem wf_run (o : Outside) (p : List Stmt) {m : Mem} (hm : Wf m) : Wf (m.run o p) :=
  wf_foldl _ (fun _ s hm => wf_exec o hm s) p hm

end Verif.Heap
