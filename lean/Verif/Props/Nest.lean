import Verif.Spec.Nest

/-!
# C113 and C114: stacks of bind rules that hold each other
-/

namespace Verif.Nest
open Verif Verif.Bind

/-! ### Lists of optional values -/

theorem mapM_cons' {α β : Type} (f : α → Option β) (x : α) (l : List α) :
    (x :: l).mapM f = (f x).bind fun y => (l.mapM f).map (y :: ·) := by
  rw [List.mapM_cons]
  cases f x with
  | none => rfl
  | some y => cases l.mapM f <;> simp

theorem mapM_mono {α β : Type} {f g : α → Option β} : ∀ {l : List α} {r : List β},
    (∀ x ∈ l, ∀ y, f x = some y → g x = some y) → l.mapM f = some r → l.mapM g = some r
  | [], r, _, h => by simpa using h
  | x :: l, r, hfg, h => by
    rw [mapM_cons'] at h ⊢
    cases hx : f x with
    | none => rw [hx] at h; cases h
    | some y =>
      rw [hx] at h
      cases hl : l.mapM f with
      | none => rw [hl] at h; cases h
      | some r' =>
        rw [hl] at h
        rw [hfg x (by simp) y hx, mapM_mono (fun x hx => hfg x (by simp [hx])) hl]
        exact h

theorem mapM_ends {α β : Type} {f : α → Option β} : ∀ {l : List α},
    (∀ x ∈ l, ∃ y, f x = some y) → ∃ r, l.mapM f = some r
  | [], _ => ⟨[], by simp⟩
  | x :: l, h => by
    obtain ⟨y, hy⟩ := h x (by simp)
    obtain ⟨r, hr⟩ := mapM_ends (l := l) fun x hx => h x (by simp [hx])
    exact ⟨y :: r, by rw [mapM_cons', hy, hr]; rfl⟩

theorem mapM_each {α β : Type} {f : α → Option β} : ∀ {l : List α} {r : List β},
    l.mapM f = some r → ∀ x ∈ l, ∃ y, f x = some y
  | [], _, _ => by simp
  | x :: l, r, h => by
    rw [mapM_cons'] at h
    cases hx : f x with
    | none => rw [hx] at h; cases h
    | some y =>
      rw [hx] at h
      cases hl : l.mapM f with
      | none => rw [hl] at h; cases h
      | some r' =>
        intro z hz
        rcases List.mem_cons.mp hz with rfl | hz
        · exact ⟨y, hx⟩
        · exact mapM_each hl z hz

theorem mapM_comp {α β γ : Type} (f : α → Option β) (g : β → γ) : ∀ l : List α,
    (l.mapM fun x => (f x).map g) = (l.mapM f).map (List.map g)
  | [] => by simp
  | x :: l => by
    rw [mapM_cons', mapM_cons', mapM_comp f g l]
    cases f x with
    | none => rfl
    | some y => cases l.mapM f <;> rfl

theorem mapM_congr {α β : Type} {f g : α → Option β} : ∀ {l : List α},
    (∀ x ∈ l, f x = g x) → l.mapM f = l.mapM g
  | [], _ => rfl
  | x :: l, h => by
    rw [mapM_cons', mapM_cons', h x (by simp), mapM_congr (l := l) fun x hx => h x (by simp [hx])]

theorem mapM_append {α β : Type} {f : α → Option β} : ∀ {l l' : List α} {r r' : List β},
    l.mapM f = some r → l'.mapM f = some r' → (l ++ l').mapM f = some (r ++ r')
  | [], l', r, r', h, h' => by
    have : r = [] := by simpa using h.symm
    subst this; exact h'
  | x :: l, l', r, r', h, h' => by
    rw [mapM_cons'] at h
    rw [List.cons_append, mapM_cons']
    cases hx : f x with
    | none => rw [hx] at h; cases h
    | some y =>
      rw [hx] at h
      cases hl : l.mapM f with
      | none => rw [hl] at h; cases h
      | some q =>
        rw [hl] at h
        have hr : y :: q = r := Option.some.inj h
        subst hr
        rw [mapM_append hl h']; rfl

/-! ### Depth -/

theorem tree_succ {h : List Cell} : ∀ {n : Nat} {e : Ent} {c : BCtx},
    treeIn h n e = some c → treeIn h (n + 1) e = some c
  | n, .rule r, c, he => by cases n <;> exact he
  | n, .zero, c, he => by cases n <;> exact he
  | 0, .stack a, c, he => by cases he
  | n + 1, .stack a, c, he => by
    unfold treeIn at he ⊢
    cases hc : h[a]? with
    | none => rw [hc] at he; exact he
    | some d =>
      rw [hc] at he
      show Option.map _ _ = _
      replace he : Option.map _ _ = _ := he
      cases hm : d.es.mapM (treeIn h n) with
      | none => rw [hm] at he; cases he
      | some r =>
        rw [hm] at he
        rw [mapM_mono (fun x _ y hy => tree_succ hy) hm]
        exact he

theorem tree_mono {h : List Cell} {n n' : Nat} (hn : n ≤ n') {e : Ent} {c : BCtx}
    (he : treeIn h n e = some c) : treeIn h n' e = some c := by
  induction hn with
  | refl => exact he
  | step _ ih => exact tree_succ ih

theorem texts_filter (val : BExpr → List Str) (many : Bool → List Str → Str) : ∀ cs : List BCtx,
    BCtx.texts val many cs = (cs.map (BCtx.text val many)).filter (· ≠ [])
  | [] => by unfold BCtx.texts; rfl
  | c :: cs => by
    unfold BCtx.texts
    rw [texts_filter val many cs, List.map_cons, List.filter_cons]
    by_cases h : BCtx.text val many c = []
    · rw [if_pos h, if_neg (by simp [h])]
    · rw [if_neg h, if_pos (by simp [h])]

theorem text_tree (P : Printer) (h : List Cell) : ∀ (n : Nat) (e : Ent),
    textIn P h n e = (treeIn h n e).map (BCtx.text P.val P.many)
  | n, .rule r => by cases n <;> rfl
  | n, .zero => by cases n <;> rfl
  | 0, .stack a => rfl
  | n + 1, .stack a => by
    unfold textIn treeIn
    cases h[a]? with
    | none => rfl
    | some c =>
      show Option.map _ _ = Option.map _ (Option.map _ _)
      rw [mapM_congr (fun x _ => text_tree P h n x), mapM_comp]
      cases c.es.mapM (treeIn h n) with
      | none => rfl
      | some cs =>
        show some _ = some _
        congr 1
        show _ = stackText P.many c.word c.paren (BCtx.texts P.val P.many cs)
        rw [texts_filter]

theorem stands_only {m : Mem} {e : Ent} {c c' : BCtx} (h : Stands m e c) (h' : Stands m e c') :
    c = c' := by
  obtain ⟨n, hn⟩ := h
  obtain ⟨n', hn'⟩ := h'
  have h1 := tree_mono (Nat.le_max_left n n') hn
  have h2 := tree_mono (Nat.le_max_right n n') hn'
  exact Option.some.inj (h1.symm.trans h2)

theorem prints_stands (P : Printer) (m : Mem) (e : Ent) (t : Str) :
    Prints P m e t ↔ ∃ c, Stands m e c ∧ t = c.text P.val P.many := by
  constructor
  · rintro ⟨n, hn⟩
    rw [text_tree] at hn
    cases hc : treeIn m.heap n e with
    | none => rw [hc] at hn; cases hn
    | some c => rw [hc] at hn; exact ⟨c, ⟨n, hc⟩, (Option.some.inj hn).symm⟩
  · rintro ⟨c, ⟨n, hn⟩, rfl⟩
    exact ⟨n, by rw [text_tree, hn]; rfl⟩

/-! ### Circles -/

/-- `b` is `a` or within it. -/
def Upto (m : Mem) (a b : Nat) : Prop := a = b ∨ Within m a b

theorem within_trans {m : Mem} {a b c : Nat} (h : Within m a b) (h' : Within m b c) : Within m a c := by
  induction h with
  | here e => exact .there e h'
  | there e _ ih => exact .there e (ih h')

theorem upto_within {m : Mem} {a b c : Nat} (h : Upto m a b) (h' : Within m b c) : Within m a c := by
  rcases h with rfl | h
  · exact h'
  · exact within_trans h h'

theorem within_upto {m : Mem} {a b c : Nat} (h : Within m a b) (h' : Upto m b c) : Within m a c := by
  rcases h' with rfl | h'
  · exact h
  · exact within_trans h h'

theorem within_head {m : Mem} {a c : Nat} (h : Within m a c) : ∃ b, Entry m a b ∧ Upto m b c := by
  cases h with
  | here e => exact ⟨c, e, .inl rfl⟩
  | there e h => exact ⟨_, e, .inr h⟩

theorem tree_entry {m : Mem} {n a b : Nat} {c : BCtx} (h : treeIn m.heap (n + 1) (.stack a) = some c)
    (hb : Entry m a b) : ∃ c', treeIn m.heap n (.stack b) = some c' := by
  obtain ⟨d, hd, hm⟩ := hb
  unfold treeIn at h
  rw [hd] at h
  replace h : Option.map _ _ = _ := h
  cases hr : d.es.mapM (treeIn m.heap n) with
  | none => rw [hr] at h; cases h
  | some r => exact mapM_each hr _ hm

theorem tree_no_circle {m : Mem} : ∀ (n a : Nat) (c : BCtx), treeIn m.heap n (.stack a) = some c →
    ∀ b, Upto m a b → ¬ Within m b b
  | 0, _, _, h => by cases h
  | n + 1, a, c, h => by
    intro b hab hbb
    have key : ∃ d, Entry m a d ∧ Upto m d b := by
      rcases hab with rfl | hab
      · exact within_head hbb
      · exact within_head hab
    obtain ⟨d, hd, hdb⟩ := key
    obtain ⟨c', hc'⟩ := tree_entry h hd
    exact tree_no_circle n d c' hc' b hdb hbb

theorem length_le {N : Nat} : ∀ {l : List Nat}, l.Nodup → (∀ x ∈ l, x < N) → l.length ≤ N := by
  induction N with
  | zero =>
    intro l _ h
    cases l with
    | nil => exact Nat.le_refl _
    | cons x l => exact absurd (h x (by simp)) (by omega)
  | succ N ih =>
    intro l hd h
    have h1 := ih (l := l.erase N) (hd.erase N) fun x hx => by
      have hx' := List.mem_of_mem_erase hx
      have := h x hx'
      have hne : x ≠ N := fun e => (List.Nodup.mem_erase_iff hd).mp hx |>.1 e
      omega
    have h2 : l.length ≤ (l.erase N).length + 1 := by
      rw [List.length_erase]
      split <;> omega
    omega

theorem no_circle_tree {m : Mem} : ∀ (n a : Nat) (vs : List Nat), vs.Nodup →
    (∀ v ∈ vs, v < m.heap.length ∧ Within m v a) → m.heap.length + 1 ≤ n + vs.length →
    (∀ b, Upto m a b → ¬ Within m b b) → ∃ c, treeIn m.heap n (.stack a) = some c
  | 0, a, vs, hd, hv, hn, _ => by
    have := length_le hd fun x hx => (hv x hx).1
    omega
  | n + 1, a, vs, hd, hv, hn, hc => by
    unfold treeIn
    cases ha : m.heap[a]? with
    | none => exact ⟨_, rfl⟩
    | some d =>
      have hlt : a < m.heap.length := (List.getElem?_eq_some_iff.mp ha).1
      obtain ⟨r, hr⟩ : ∃ r, d.es.mapM (treeIn m.heap n) = some r := by
        apply mapM_ends
        intro x hx
        cases x with
        | rule r => cases n <;> exact ⟨_, rfl⟩
        | zero => cases n <;> exact ⟨_, rfl⟩
        | stack b =>
          have hab : Entry m a b := ⟨d, ha, hx⟩
          refine no_circle_tree n b (a :: vs) ?_ ?_ ?_ ?_
          · rw [List.nodup_cons]
            exact ⟨fun hin => hc a (.inl rfl) (hv a hin).2, hd⟩
          · intro v hv'
            rcases List.mem_cons.mp hv' with rfl | hv'
            · exact ⟨hlt, .here hab⟩
            · exact ⟨(hv v hv').1, within_trans (hv v hv').2 (.here hab)⟩
          · simp only [List.length_cons]; omega
          · intro c hbc
            exact hc c (.inr (within_upto (.here hab) hbc))
      exact ⟨_, by show Option.map _ _ = _; rw [hr]; rfl⟩

theorem stands_iff (m : Mem) (e : Ent) :
    (∃ c, Stands m e c) ↔ ¬ ∃ a, Contains m e a ∧ Within m a a := by
  constructor
  · rintro ⟨c, n, hn⟩ ⟨a, ⟨b, rfl, hb⟩, ha⟩
    exact tree_no_circle n b c hn a hb ha
  · intro h
    cases e with
    | rule r => exact ⟨_, 0, rfl⟩
    | zero => exact ⟨_, 0, rfl⟩
    | stack a =>
      obtain ⟨c, hc⟩ := no_circle_tree (m := m) (m.heap.length + 1) a [] (by simp) (by simp)
        (by simp) fun b hb hbb => h ⟨b, ⟨a, rfl, hb⟩, hbb⟩
      exact ⟨c, _, hc⟩

/-! ### What statements do to the stacks -/

theorem modify_at {h : List Cell} {a : Nat} {c : Cell} (f : Cell → Cell) (hc : h[a]? = some c) :
    (h.modify a f)[a]? = some (f c) := by
  rw [List.getElem?_modify, hc]; simp

theorem modify_off {h : List Cell} {a b : Nat} (f : Cell → Cell) (hb : b ≠ a) :
    (h.modify a f)[b]? = h[b]? := by
  rw [List.getElem?_modify]
  cases h[b]? with
  | none => rfl
  | some c => simp [Ne.symm hb]

theorem mem_dropLast {α : Type} {x : α} {l : List α} (h : x ∈ l.dropLast) : x ∈ l :=
  (List.dropLast_sublist l).subset h

theorem push_mem {stop : Bool} {e : Ent} : ∀ {es : List Ent} {xs : List (Option Ent)},
    e ∈ stackPush stop (fun _ => accept) es xs → e ∈ es ∨ some e ∈ xs
  | es, [], h => .inl h
  | es, x :: xs, h => by
    unfold stackPush at h
    cases hx : accept x with
    | none =>
      simp only [hx] at h
      by_cases hs : stop = true
      · rw [if_pos hs] at h; exact .inl h
      · rw [if_neg hs] at h
        rcases push_mem h with h | h
        · exact .inl h
        · exact .inr (by simp [h])
    | some y =>
      simp only [hx] at h
      have hxy : x = some y := by
        unfold accept at hx
        split at hx
        · split at hx
          · exact hx
          · cases hx
        · exact hx
        · cases hx
      rcases push_mem h with h | h
      · rcases List.mem_append.mp h with h | h
        · exact .inl h
        · rw [List.mem_singleton] at h
          exact .inr (by rw [hxy, h]; simp)
      · exact .inr (by simp [h])

theorem replace_mem {o : Outside} {es : List Ent} {x : Option Ent} {i : Int} {e : Ent}
    (h : e ∈ replaceAt o es x i) : e ∈ es ∨ x = some e := by
  unfold replaceAt at h
  split at h
  · split at h
    · rcases List.mem_or_eq_of_mem_set h with h | h
      · exact .inl h
      · exact .inr (by rw [h])
    · exact o.replace_mem _ _ _ _ h
  · exact o.replace_mem _ _ _ _ h

theorem index_mem {o : Outside} {es : List Ent} {i : Int} {e : Ent}
    (h : indexAt o es i = some e) : e ∈ es := by
  unfold indexAt at h
  split at h
  · exact List.mem_of_getElem? h
  · exact o.index_mem _ _ _ h

/-- Every address is that of a stack. -/
def Fit (m : Mem) : Prop :=
  (∀ v a, m.vars v = some (.stack a) → a < m.heap.length) ∧
    ∀ a b, Entry m a b → b < m.heap.length

theorem Fit.put {m : Mem} (h : Fit m) (v : Nat) (x : Option Ent)
    (hx : ∀ a, x = some (.stack a) → a < m.heap.length) : Fit (m.put v x) := by
  refine ⟨fun w a hw => ?_, h.2⟩
  simp only [Mem.put] at hw ⊢
  split at hw
  · exact hx a hw
  · exact h.1 w a hw

theorem entry_change {m : Mem} {v : Nat} {f : Cell → Cell} {B : Nat → Prop}
    (hf : ∀ a c, m.vars v = some (.stack a) → m.heap[a]? = some c → ∀ b, Ent.stack b ∈ (f c).es →
      Ent.stack b ∈ c.es ∨ B b) {x y : Nat} (h : Entry (m.change v f) x y) :
    Entry m x y ∨ (m.vars v = some (.stack x) ∧ B y) := by
  unfold Mem.change at h
  split at h
  · rename_i a hv
    obtain ⟨c, hc, hy⟩ := h
    simp only at hc
    by_cases hax : x = a
    · subst hax
      cases hx : m.heap[x]? with
      | none =>
        rw [List.getElem?_modify, hx] at hc; cases hc
      | some d =>
        rw [modify_at f hx] at hc
        cases hc
        rcases hf x d hv hx y hy with h | h
        · exact .inl ⟨d, hx, h⟩
        · exact .inr ⟨hv, h⟩
    · rw [modify_off f hax] at hc
      exact .inl ⟨c, hc, hy⟩
  · exact .inl h

theorem change_length {m : Mem} {v : Nat} {f : Cell → Cell} :
    (m.change v f).heap.length = m.heap.length := by
  unfold Mem.change
  split
  · simp
  · rfl

theorem change_vars {m : Mem} {v : Nat} {f : Cell → Cell} : (m.change v f).vars = m.vars := by
  unfold Mem.change
  split <;> rfl

theorem Fit.change {m : Mem} (h : Fit m) {v : Nat} {f : Cell → Cell}
    (hf : ∀ a c, m.vars v = some (.stack a) → m.heap[a]? = some c → ∀ b, Ent.stack b ∈ (f c).es →
      Ent.stack b ∈ c.es ∨ b < m.heap.length) : Fit (m.change v f) := by
  refine ⟨fun w a hw => ?_, fun a b hab => ?_⟩
  · rw [change_length]; rw [change_vars] at hw; exact h.1 w a hw
  · rw [change_length]
    rcases entry_change hf hab with h' | h'
    · exact h.2 a b h'
    · exact h'.2

theorem entries_mem {m : Mem} {v : Nat} {e : Ent} (h : e ∈ m.entries v) :
    ∃ a c, m.vars v = some (.stack a) ∧ m.heap[a]? = some c ∧ e ∈ c.es := by
  unfold Mem.entries at h
  split at h
  · rename_i a hv
    cases hc : m.heap[a]? with
    | none => rw [hc] at h; cases h
    | some c => rw [hc] at h; exact ⟨a, c, hv, hc, h⟩
  · cases h

theorem arg_some {m : Mem} {xs : List Arg} {e : Ent} (h : some e ∈ xs.map m.arg) :
    ∃ x, some x ∈ xs ∧ m.vars x = some e := by
  obtain ⟨x, hx, he⟩ := List.mem_map.mp h
  cases x with
  | none => cases he
  | some x => exact ⟨x, hx, he⟩

theorem make_entry {m : Mem} {c : Cell} {vars : Nat → Option Ent} {a b : Nat}
    (h : Entry ⟨m.heap ++ [c], vars⟩ a b) :
    Entry m a b ∨ (a = m.heap.length ∧ Ent.stack b ∈ c.es) := by
  obtain ⟨d, hd, hb⟩ := h
  simp only at hd
  by_cases ha : a < m.heap.length
  · rw [List.getElem?_append_left ha] at hd
    exact .inl ⟨d, hd, hb⟩
  · rw [List.getElem?_append_right (by omega)] at hd
    have : a - m.heap.length = 0 := by
      have := (List.getElem?_eq_some_iff.mp hd).1
      simp at this; omega
    rw [this] at hd
    simp at hd
    subst hd
    exact .inr ⟨by omega, hb⟩

theorem Fit.exec {o : Outside} {m : Mem} (h : Fit m) (s : Stmt) : Fit (m.exec o s) := by
  cases s with
  | rule v r => exact h.put v _ (by intro a e; cases e)
  | zero v => exact h.put v _ (by intro a e; cases e)
  | copy w v => exact h.put w _ fun a e => h.1 v a e
  | index w v i =>
    refine h.put w _ fun a e => ?_
    obtain ⟨b, c, hv, hc, hm⟩ := entries_mem (index_mem e)
    exact h.2 b a ⟨c, hc, hm⟩
  | paren v b => exact h.change fun a c _ _ b hb => .inl hb
  | replace v x i =>
    refine h.change fun a c _ _ b hb => ?_
    rcases replace_mem hb with hb | hb
    · exact .inl hb
    · exact .inr (h.1 x b hb)
  | push v xs =>
    refine h.change fun a c _ _ b hb => ?_
    rcases push_mem hb with hb | hb
    · exact .inl hb
    · obtain ⟨x, _, hx⟩ := arg_some hb
      exact .inr (h.1 x b hx)
  | pop w v =>
    have h1 : Fit (m.change v fun c => { c with es := c.es.dropLast }) :=
      h.change fun a c _ _ b hb => .inl (mem_dropLast hb)
    refine h1.put w _ fun a e => ?_
    rw [change_length]
    obtain ⟨b, c, hv, hc, hm⟩ := entries_mem (List.mem_of_getLast? e)
    exact h.2 b a ⟨c, hc, hm⟩
  | make v w xs =>
    have h1 : Fit ⟨m.heap ++ [⟨w, false, stackPush o.stop (fun _ => accept) [] (xs.map m.arg)⟩], m.vars⟩ := by
      refine ⟨fun v a hv => ?_, fun a b hab => ?_⟩
      · have := h.1 v a hv
        simp only [List.length_append, List.length_cons, List.length_nil]; omega
      · simp only [List.length_append, List.length_cons, List.length_nil]
        rcases make_entry hab with hab | ⟨_, hb⟩
        · have := h.2 a b hab; omega
        · rcases push_mem hb with hb | hb
          · cases hb
          · obtain ⟨x, _, hx⟩ := arg_some hb
            have := h.1 x b hx; omega
    exact h1.put v _ fun a e => by cases e; simp

theorem Fit.empty : Fit Mem.empty := by
  refine ⟨fun _ _ h => (by cases h), fun a b h => ?_⟩
  obtain ⟨c, hc, _⟩ := h
  simp [Mem.empty] at hc

theorem Fit.run {o : Outside} : ∀ (p : List Stmt) {m : Mem}, Fit m → Fit (m.run o p)
  | [], _, h => h
  | s :: p, _, h => Fit.run p (h.exec s)

/-! ### No circles -/

/-- No stack is within itself. -/
def Acyclic (m : Mem) : Prop := ∀ a, ¬ Within m a a

theorem within_more {m m' : Mem} {a : Nat} {B : Nat → Prop}
    (h : ∀ x y, Entry m' x y → Entry m x y ∨ (x = a ∧ B y)) {x y : Nat} (hxy : Within m' x y) :
    Within m x y ∨ (Upto m x a ∧ ∃ b, B b ∧ Upto m b y) := by
  induction hxy with
  | @here x y e =>
    rcases h x y e with h | ⟨rfl, hb⟩
    · exact .inl (.here h)
    · exact .inr ⟨.inl rfl, y, hb, .inl rfl⟩
  | @there x y z e _ ih =>
    rcases h x y e with h | ⟨rfl, hb⟩
    · rcases ih with ih | ⟨h1, h2⟩
      · exact .inl (.there h ih)
      · refine .inr ⟨.inr (within_upto (.here h) h1), h2⟩
    · rcases ih with ih | ⟨_, h2⟩
      · exact .inr ⟨.inl rfl, y, hb, .inr ih⟩
      · exact .inr ⟨.inl rfl, h2⟩

theorem acyclic_more {m m' : Mem} (hm : Acyclic m) {a : Nat} {B : Nat → Prop}
    (h : ∀ x y, Entry m' x y → Entry m x y ∨ (x = a ∧ B y)) (hb : ∀ b, B b → ¬ Upto m b a) :
    Acyclic m' := by
  intro x hx
  rcases within_more h hx with h1 | ⟨h1, b, h2, h3⟩
  · exact hm x h1
  · refine hb b h2 ?_
    rcases h1 with rfl | h1
    · exact h3
    · exact .inr (upto_within h3 h1)

theorem acyclic_less {m m' : Mem} (hm : Acyclic m) (h : ∀ x y, Entry m' x y → Entry m x y) :
    Acyclic m' :=
  acyclic_more hm (a := 0) (B := fun _ => False) (fun x y e => .inl (h x y e)) (fun _ h => h.elim)

theorem acyclic_exec {o : Outside} {m : Mem} (hf : Fit m) (hm : Acyclic m) (s : Stmt)
    (hs : Careful m s) : Acyclic (m.exec o s) := by
  have put : ∀ {m' : Mem} (v : Nat) (x : Option Ent), Acyclic m' → Acyclic (m'.put v x) :=
    fun _ _ h => acyclic_less h fun _ _ e => e
  have same : ∀ {v : Nat} {f : Cell → Cell}, (∀ c, ∀ e ∈ (f c).es, e ∈ c.es) →
      Acyclic (m.change v f) := by
    intro v f h
    refine acyclic_less hm fun x y e => ?_
    rcases entry_change (B := fun _ => False) (fun a c _ _ b hb => .inl (h c _ hb)) e with e | e
    · exact e
    · exact e.2.elim
  cases s with
  | rule v r => exact put v _ hm
  | zero v => exact put v _ hm
  | copy w v => exact put w _ hm
  | index w v i => exact put w _ hm
  | paren v b => exact same fun c e h => h
  | pop w v => exact put w _ (same fun c e h => mem_dropLast h)
  | make v w xs =>
    refine put v _ ?_
    refine acyclic_more hm (a := m.heap.length) (B := fun b => b < m.heap.length) ?_ ?_
    · intro x y e
      rcases make_entry e with e | ⟨h1, h2⟩
      · exact .inl e
      · refine .inr ⟨h1, ?_⟩
        rcases push_mem h2 with hb | hb
        · cases hb
        · obtain ⟨x, _, hx⟩ := arg_some hb
          exact hf.1 x _ hx
    · intro b hb hu
      rcases hu with rfl | hu
      · omega
      · have : ∀ {x y}, Within m x y → y < m.heap.length := by
          intro x y h
          induction h with
          | here e => exact hf.2 _ _ e
          | there _ _ ih => exact ih
        exact absurd (this hu) (by omega)
  | push v xs =>
    cases hv : m.vars v with
    | none => simp only [Mem.exec, Mem.change, hv]; exact hm
    | some e =>
      cases e with
      | rule r => simp only [Mem.exec, Mem.change, hv]; exact hm
      | zero => simp only [Mem.exec, Mem.change, hv]; exact hm
      | stack a =>
        refine acyclic_more hm (a := a)
          (B := fun b => ∃ x, some x ∈ xs ∧ m.vars x = some (.stack b)) ?_ ?_
        · intro x y e
          rcases entry_change (B := fun b => ∃ x, some x ∈ xs ∧ m.vars x = some (.stack b)) (fun a c _ _ b hb => by
            rcases push_mem hb with hb | hb
            · exact .inl hb
            · exact .inr (arg_some hb)) e with e | ⟨h1, h2⟩
          · exact .inl e
          · rw [hv] at h1; cases h1; exact .inr ⟨rfl, h2⟩
        · rintro b ⟨x, hx, he⟩ hu
          exact hs a hv x _ hx he ⟨b, rfl, hu⟩
  | replace v x i =>
    cases hv : m.vars v with
    | none => simp only [Mem.exec, Mem.change, hv]; exact hm
    | some e =>
      cases e with
      | rule r => simp only [Mem.exec, Mem.change, hv]; exact hm
      | zero => simp only [Mem.exec, Mem.change, hv]; exact hm
      | stack a =>
        refine acyclic_more hm (a := a) (B := fun b => m.vars x = some (.stack b)) ?_ ?_
        · intro y z e
          rcases entry_change (B := fun b => m.vars x = some (.stack b)) (fun a c _ _ b hb => by
            rcases replace_mem hb with hb | hb
            · exact .inl hb
            · exact .inr hb) e with e | ⟨h1, h2⟩
          · exact .inl e
          · rw [hv] at h1; cases h1; exact .inr ⟨rfl, h2⟩
        · intro b hx hu
          exact hs a hv _ hx ⟨b, rfl, hu⟩

theorem acyclic_run {o : Outside} : ∀ (p : List Stmt) {m : Mem}, Fit m → Acyclic m →
    CarefulRun o m p → Acyclic (m.run o p)
  | [], _, _, hm, _ => hm
  | s :: p, _, hf, hm, hp => acyclic_run p (hf.exec s) (acyclic_exec hf hm s hp.1) hp.2

theorem acyclic_empty : Acyclic Mem.empty := by
  intro a h
  obtain ⟨b, ⟨c, hc, _⟩, _⟩ := within_head h
  simp [Mem.empty] at hc

/-! ## C113 -/

/-- The claim: whatever a program made can be printed. -/
def C113_claim : Prop :=
  ∀ (P : Printer) (o : Outside) (p : List Stmt) (v : Nat) (e : Ent),
    (Mem.empty.run o p).vars v = some e → ∃ t, Prints P (Mem.empty.run o p) e t

/-- **C113** (when).  In any memory, `String` ends exactly if the receiver neither is nor
contains a stack that is within itself. -/
theorem C113_iff (P : Printer) (m : Mem) (e : Ent) :
    (∃ t, Prints P m e t) ↔ ¬ ∃ a, Contains m e a ∧ Within m a a := by
  rw [← stands_iff]
  constructor
  · rintro ⟨t, ht⟩
    obtain ⟨c, hc, _⟩ := (prints_stands P m e t).mp ht
    exact ⟨c, hc⟩
  · rintro ⟨c, hc⟩
    exact ⟨_, (prints_stands P m e _).mpr ⟨c, hc, rfl⟩⟩

/-- **C113** (what).  If `String` ends, then its text is that of a tree of rules, of which
the other theorems about bind rules speak; and there is only one such tree. -/
theorem C113_tree (P : Printer) (m : Mem) (e : Ent) (t : Str) (h : Prints P m e t) :
    ∃ c : BCtx, Stands m e c ∧ t = c.text P.val P.many ∧ ∀ c', Stands m e c' → c' = c := by
  obtain ⟨c, hc, ht⟩ := (prints_stands P m e t).mp h
  exact ⟨c, hc, ht, fun c' h' => stands_only h' hc⟩

/-- **C113** (when it begins).  After `v.Push(x)` in a memory without circles, the stack of
`v` is within itself exactly if `x` is this stack or contains it. -/
theorem C113_push_iff (o : Outside) (m : Mem) (hm : ∀ a, ¬ Within m a a) (v x a : Nat) (c : Cell)
    (hv : m.vars v = some (.stack a)) (hc : m.heap[a]? = some c) :
    Within (m.exec o (.push v [some x])) a a ↔ ∃ e, m.vars x = some e ∧ Contains m e a := by
  have hheap : ∀ {b d}, m.heap[b]? = some d → b ≠ a →
      (m.exec o (.push v [some x])).heap[b]? = some d := by
    intro b d hb hne
    simp only [Mem.exec, Mem.change, hv]
    rw [modify_off _ hne]; exact hb
  have hself : (m.exec o (.push v [some x])).heap[a]? =
      some { c with es := stackPush o.stop (fun _ => accept) c.es [m.vars x] } := by
    simp only [Mem.exec, Mem.change, hv]
    rw [modify_at _ hc]; rfl
  constructor
  · intro h
    rcases within_more (m := m) (a := a) (B := fun b => m.vars x = some (.stack b)) (by
      intro y z e
      rcases entry_change (m := m) (v := v) (B := fun b => m.vars x = some (.stack b)) (by
        intro a c _ _ b hb
        rcases push_mem hb with hb | hb
        · exact .inl hb
        · obtain ⟨y, hy, hb⟩ := arg_some hb
          rw [List.mem_singleton] at hy
          cases hy
          exact .inr hb) e with e | ⟨h1, h2⟩
      · exact .inl e
      · rw [hv] at h1; cases h1; exact .inr ⟨rfl, h2⟩) h with h1 | ⟨_, b, h2, h3⟩
    · exact absurd h1 (hm a)
    · exact ⟨_, h2, b, rfl, h3⟩
  · rintro ⟨e, hx, b, rfl, hb⟩
    have hab : Entry (m.exec o (.push v [some x])) a b := by
      refine ⟨_, hself, ?_⟩
      rw [hx]
      show Ent.stack b ∈ c.es ++ [Ent.stack b]
      simp
    rcases hb with rfl | hb
    · exact .here hab
    · have grow : ∀ {y z}, Within m y z → Within (m.exec o (.push v [some x])) y z := by
        have step : ∀ {y z}, Entry m y z → Entry (m.exec o (.push v [some x])) y z := by
          rintro y z ⟨d, hd, hz⟩
          by_cases hy : y = a
          · subst hy
            rw [hc] at hd; cases hd
            refine ⟨_, hself, ?_⟩
            rw [hx]
            show Ent.stack z ∈ c.es ++ [Ent.stack b]
            simp [hz]
          · exact ⟨d, hheap hd hy, hz⟩
        intro y z h
        induction h with
        | here e => exact .here (step e)
        | there e _ ih => exact .there (step e) ih
      exact .there hab (grow hb)

/-- **C113** (partial).  Everything made by a program that puts nothing into a stack that
contains this stack can be printed.  Missing for the full claim: programs that do, see
`C113_push_iff`. -/
theorem C113_partial (P : Printer) (o : Outside) (p : List Stmt)
    (hp : CarefulRun o Mem.empty p) (v : Nat) (e : Ent)
    (_hv : (Mem.empty.run o p).vars v = some e) : ∃ t, Prints P (Mem.empty.run o p) e t :=
  (C113_iff P _ e).mpr fun ⟨a, _, ha⟩ => acyclic_run p .empty acyclic_empty hp a ha

/-! ### Pushing, seen as trees -/

/-- Only the stack at `a` differs. -/
theorem tree_frame {m m' : Mem} {a : Nat} (h : ∀ b, b ≠ a → m'.heap[b]? = m.heap[b]?) :
    ∀ (n : Nat) (e : Ent), ¬ Contains m e a → treeIn m'.heap n e = treeIn m.heap n e
  | n, .rule r, _ => by cases n <;> rfl
  | n, .zero, _ => by cases n <;> rfl
  | 0, .stack b, _ => rfl
  | n + 1, .stack b, hb => by
    have hne : b ≠ a := fun e => hb ⟨b, rfl, .inl e⟩
    unfold treeIn
    rw [h b hne]
    cases hc : m.heap[b]? with
    | none => rfl
    | some c =>
      show Option.map _ _ = Option.map _ _
      rw [mapM_congr fun e he => tree_frame h n e ?_]
      rintro ⟨d, rfl, hd⟩
      exact hb ⟨b, rfl, .inr (within_upto (.here ⟨c, hc, he⟩) hd)⟩

theorem change_frame {m : Mem} {v a : Nat} (hv : m.vars v = some (.stack a)) (f : Cell → Cell) :
    ∀ b, b ≠ a → (m.change v f).heap[b]? = m.heap[b]? := by
  intro b hb
  simp only [Mem.change, hv]
  exact modify_off _ hb

/-- An argument in memory and as a tree. -/
def ArgStands (m : Mem) : Option Ent → BArg → Prop
  | none, y => y = .other
  | some e, y => ∃ c, y = .ctx c ∧ Stands m e c

theorem push_trees {h : List Cell} {stop : Bool} {g : Arg → Option Ent} {tr : Arg → BArg} :
    ∀ {xs : List Arg} {es : List Ent} {cs : List BCtx} {n : Nat},
      es.mapM (treeIn h n) = some cs →
      (∀ x ∈ xs, (g x = none ∧ tr x = .other) ∨
        ∃ e c, g x = some e ∧ (∀ b, e = .stack b → b < h.length) ∧ tr x = .ctx c ∧
          treeIn h n e = some c) →
      (stackPush stop (fun _ => accept) es (xs.map g)).mapM (treeIn h n) =
        some (pushB stop cs (xs.map tr))
  | [], es, cs, n, hes, _ => hes
  | x :: xs, es, cs, n, hes, hx => by
    have ih := fun {es' : List Ent} {cs' : List BCtx} (hh : es'.mapM (treeIn h n) = some cs') =>
      push_trees (stop := stop) (g := g) (tr := tr) (xs := xs) hh fun y hy => hx y (by simp [hy])
    have skip : accept (g x) = none → acceptB (tr x) = none →
        (stackPush stop (fun _ => accept) es ((x :: xs).map g)).mapM (treeIn h n) =
          some (pushB stop cs ((x :: xs).map tr)) := by
      intro h1 h2
      simp only [pushB, List.map_cons, stackPush, h1, h2]
      by_cases hs : stop = true
      · rw [if_pos hs, if_pos hs]; exact hes
      · rw [if_neg hs, if_neg hs]; exact ih hes
    have add : ∀ e c, accept (g x) = some e → acceptB (tr x) = some c → treeIn h n e = some c →
        (stackPush stop (fun _ => accept) es ((x :: xs).map g)).mapM (treeIn h n) =
          some (pushB stop cs ((x :: xs).map tr)) := by
      intro e c h1 h2 h3
      simp only [pushB, List.map_cons, stackPush, h1, h2]
      exact ih (mapM_append hes (by rw [mapM_cons', h3]; rfl))
    have h0 := hx x (by simp)
    rcases h0 with ⟨hg, h0⟩ | ⟨e, c, hg, hb, hc, ht⟩
    · exact skip (by rw [hg]; rfl) (by rw [h0]; rfl)
    · rw [hg] at skip add
      cases e with
      | zero =>
        have : c = .zero := by cases n <;> exact (Option.some.inj ht).symm
        exact skip rfl (by rw [hc, this]; rfl)
      | rule r =>
        have hcr : c = .rule r := by cases n <;> exact (Option.some.inj ht).symm
        by_cases hk : matchBKW (BindKeyword.string r.keyword) ≠ 0
        · exact add (.rule r) c (by simp only [accept]; exact if_pos hk)
            (by rw [hc, hcr]; simp only [acceptB]; exact if_pos hk) ht
        · exact skip (by simp only [accept]; exact if_neg hk)
            (by rw [hc, hcr]; simp only [acceptB]; exact if_neg hk)
      | stack b =>
        have hlt := hb b rfl
        cases n with
        | zero => cases ht
        | succ n =>
          have hcell : h[b]? = some h[b] := List.getElem?_eq_getElem hlt
          unfold treeIn at ht
          rw [hcell] at ht
          replace ht : Option.map _ _ = _ := ht
          cases hr : h[b].es.mapM (treeIn h n) with
          | none => rw [hr] at ht; cases ht
          | some r =>
            rw [hr] at ht
            refine add (.stack b) c rfl (by rw [hc, ← Option.some.inj ht]; rfl) ?_
            unfold treeIn
            rw [hcell]
            show Option.map _ _ = _
            rw [hr]; exact ht

theorem common_depth {m : Mem} {g : Arg → Option Ent} {tr : Arg → BArg} : ∀ {xs : List Arg} (n : Nat),
    (∀ x ∈ xs, ArgStands m (g x) (tr x)) →
    ∃ n', n ≤ n' ∧ ∀ x ∈ xs, (g x = none ∧ tr x = .other) ∨
      ∃ e c, g x = some e ∧ tr x = .ctx c ∧ treeIn m.heap n' e = some c
  | [], n, _ => ⟨n, Nat.le_refl n, by simp⟩
  | x :: xs, n, h => by
    obtain ⟨n1, hn1, h1⟩ := common_depth (xs := xs) n fun y hy => h y (by simp [hy])
    have h0 := h x (by simp)
    cases hg : g x with
    | none =>
      rw [hg] at h0
      refine ⟨n1, hn1, fun z hz => ?_⟩
      rcases List.mem_cons.mp hz with rfl | hz
      · exact .inl ⟨hg, h0⟩
      · exact h1 z hz
    | some e =>
      rw [hg] at h0
      obtain ⟨c, hc, k, hk⟩ := h0
      refine ⟨max n1 k, by omega, fun z hz => ?_⟩
      rcases List.mem_cons.mp hz with rfl | hz
      · exact .inr ⟨e, c, hg, hc, tree_mono (Nat.le_max_right _ _) hk⟩
      · rcases h1 z hz with h1 | ⟨e', c', hg', hc', hk'⟩
        · exact .inl h1
        · exact .inr ⟨e', c', hg', hc', tree_mono (Nat.le_max_left _ _) hk'⟩

theorem tree_append {m : Mem} (hf : Fit m) (c : Cell) : ∀ (n : Nat) (e : Ent),
    (∀ b, e = .stack b → b < m.heap.length) → treeIn (m.heap ++ [c]) n e = treeIn m.heap n e
  | n, .rule r, _ => by cases n <;> rfl
  | n, .zero, _ => by cases n <;> rfl
  | 0, .stack b, _ => rfl
  | n + 1, .stack b, hb => by
    unfold treeIn
    rw [List.getElem?_append_left (hb b rfl)]
    cases hc : m.heap[b]? with
    | none => rfl
    | some d =>
      show Option.map _ _ = Option.map _ _
      rw [mapM_congr fun e he => tree_append hf c n e ?_]
      rintro b' rfl
      exact hf.2 b b' ⟨d, hc, he⟩

theorem stands_stack {m : Mem} {a : Nat} {w : Word} {b : Bool} {cs : List BCtx}
    (h : Stands m (.stack a) (.rules w b cs)) :
    ∃ c n, m.heap[a]? = some c ∧ c.word = w ∧ c.paren = b ∧ c.es.mapM (treeIn m.heap n) = some cs ∧
      ∀ e ∈ c.es, ¬ Contains m e a := by
  obtain ⟨n, hn⟩ := h
  have hcirc := tree_no_circle n a _ hn a (.inl rfl)
  cases n with
  | zero => cases hn
  | succ n =>
    unfold treeIn at hn
    cases hc : m.heap[a]? with
    | none => rw [hc] at hn; cases hn
    | some c =>
      rw [hc] at hn
      replace hn : Option.map _ _ = _ := hn
      cases hr : c.es.mapM (treeIn m.heap n) with
      | none => rw [hr] at hn; cases hn
      | some r =>
        rw [hr] at hn
        injection Option.some.inj hn with e1 e2 e3
        subst e3
        refine ⟨c, n, rfl, e1, e2, hr, ?_⟩
        rintro e he ⟨d, rfl, hd⟩
        exact hcirc (within_upto (.here ⟨c, hc, he⟩) hd)

theorem change_stands {m : Mem} {v a n : Nat} {f : Cell → Cell} {c : Cell} {cs : List BCtx}
    (hv : m.vars v = some (.stack a)) (hc : m.heap[a]? = some c)
    (hes : (f c).es.mapM (treeIn m.heap n) = some cs) (hno : ∀ e ∈ (f c).es, ¬ Contains m e a) :
    Stands (m.change v f) (.stack a) (.rules (f c).word (f c).paren cs) := by
  refine ⟨n + 1, ?_⟩
  have hc' : (m.change v f).heap[a]? = some (f c) := by
    simp only [Mem.change, hv]
    exact modify_at f hc
  unfold treeIn
  rw [hc']
  show Option.map _ _ = _
  rw [mapM_congr (g := treeIn m.heap n) fun e he => tree_frame (change_frame hv f) n e (hno e he), hes]
  rfl

/-- **C113** (pushing).  After any program, a push of contexts that do not contain the
receiver makes of its tree what the model of trees says: the arguments are appended up to
what the policy refuses. -/
theorem C113_push (o : Outside) (p : List Stmt) (v a : Nat) (xs : List Arg) (tr : Arg → BArg)
    (w : Word) (b : Bool) (cs : List BCtx)
    (hv : (Mem.empty.run o p).vars v = some (.stack a))
    (hs : Stands (Mem.empty.run o p) (.stack a) (.rules w b cs))
    (hx : ∀ x ∈ xs, match (Mem.empty.run o p).arg x with
      | none => tr x = .other
      | some e => ¬ Contains (Mem.empty.run o p) e a ∧ ∃ c, tr x = .ctx c ∧ Stands (Mem.empty.run o p) e c) :
    Stands ((Mem.empty.run o p).exec o (.push v xs)) (.stack a)
      (.rules w b (pushB o.stop cs (xs.map tr))) := by
  have hf : Fit (Mem.empty.run o p) := Fit.run p .empty
  generalize Mem.empty.run o p = m at hv hs hx hf
  obtain ⟨c, n, hc, rfl, rfl, hes, hno⟩ := stands_stack hs
  have h2 : ∀ x ∈ xs, ArgStands m (m.arg x) (tr x) := fun x hx' => by
    have := hx x hx'
    cases hy : m.arg x with
    | none => rw [hy] at this; exact this
    | some e => rw [hy] at this; exact this.2
  obtain ⟨k, hk, hk'⟩ := common_depth n h2
  have key := push_trees (stop := o.stop) (g := m.arg) (tr := tr)
    (mapM_mono (fun _ _ _ hy => tree_mono hk hy) hes) (xs := xs) fun y hy => by
      rcases hk' y hy with h | ⟨e, c, h1, h2, h3⟩
      · exact .inl h
      · refine .inr ⟨e, c, h1, fun b hb => ?_, h2, h3⟩
        obtain ⟨x, _, hx'⟩ := arg_some (List.mem_map.mpr ⟨y, hy, h1⟩)
        subst hb
        exact hf.1 x b hx'
  refine change_stands (f := fun c => { c with
    es := stackPush o.stop (fun _ => accept) c.es (xs.map m.arg) }) hv hc key fun e he => ?_
  rcases push_mem he with he | he
  · exact hno e he
  · obtain ⟨x, hx1, hx2⟩ := arg_some he
    have := hx (some x) hx1
    rw [show m.arg (some x) = some e from hx2] at this
    exact this.1

/-- **C113** (making).  What `And`, `Or` and `Not` return after any program is a new stack,
without parentheses, of those arguments that the policy takes. -/
theorem C113_make (o : Outside) (p : List Stmt) (v : Nat) (w : Word) (xs : List Arg) (tr : Arg → BArg)
    (hx : ∀ x ∈ xs, match (Mem.empty.run o p).arg x with
      | none => tr x = .other
      | some e => ∃ c, tr x = .ctx c ∧ Stands (Mem.empty.run o p) e c) :
    ∃ a, ((Mem.empty.run o p).exec o (.make v w xs)).vars v = some (.stack a) ∧
      Stands ((Mem.empty.run o p).exec o (.make v w xs)) (.stack a)
        (.rules w false (pushB o.stop [] (xs.map tr))) ∧
      ∀ u e, (Mem.empty.run o p).vars u = some e → ¬ Contains (Mem.empty.run o p) e a := by
  have hf : Fit (Mem.empty.run o p) := Fit.run p .empty
  generalize Mem.empty.run o p = m at hx hf
  refine ⟨m.heap.length, by simp [Mem.exec, Mem.put], ?_, ?_⟩
  · have h2 : ∀ x ∈ xs, ArgStands m (m.arg x) (tr x) := fun x hx' => by
      have := hx x hx'
      cases hy : m.arg x with
      | none => rw [hy] at this; exact this
      | some e => rw [hy] at this; exact this
    obtain ⟨k, _, hk'⟩ := common_depth 0 h2
    have key := push_trees (stop := o.stop) (g := m.arg) (tr := tr) (h := m.heap) (n := k) (es := []) (cs := [])
      (by simp) (xs := xs) fun y hy => by
        rcases hk' y hy with h | ⟨e, c, h1, h2, h3⟩
        · exact .inl h
        · refine .inr ⟨e, c, h1, fun b hb => ?_, h2, h3⟩
          obtain ⟨x, _, hx'⟩ := arg_some (List.mem_map.mpr ⟨y, hy, h1⟩)
          subst hb
          exact hf.1 x b hx'
    refine ⟨k + 1, ?_⟩
    have hc : (m.exec o (.make v w xs)).heap[m.heap.length]? =
        some ⟨w, false, stackPush o.stop (fun _ => accept) [] (xs.map m.arg)⟩ := by
      simp [Mem.exec, Mem.put]
    unfold treeIn
    rw [hc]
    show Option.map _ _ = _
    rw [mapM_congr (f := treeIn (m.exec o (.make v w xs)).heap k) (g := treeIn m.heap k)
      fun e he => tree_append hf _ k e ?_]
    · show Option.map _ (List.mapM _ (stackPush o.stop (fun _ => accept) [] (xs.map m.arg))) = _
      rw [key]; rfl
    · rintro b rfl
      rcases push_mem he with he | he
      · cases he
      · obtain ⟨x, _, hx'⟩ := arg_some he
        exact hf.1 x b hx'
  · rintro u e hu ⟨b, rfl, hb⟩
    have hb' := hf.1 u b hu
    rcases hb with rfl | hb
    · omega
    · have : ∀ {x y}, Within m x y → y < m.heap.length := by
        intro x y h
        induction h with
        | here e => exact hf.2 _ _ e
        | there _ _ ih => exact ih
      exact absurd (this hb) (by omega)

theorem mapM_get {α β : Type} {f : α → Option β} : ∀ {l : List α} {r : List β},
    l.mapM f = some r → ∀ (i : Nat) (x : α), l[i]? = some x → ∃ y, r[i]? = some y ∧ f x = some y
  | [], _, _ => by simp
  | x :: l, r, h => by
    rw [mapM_cons'] at h
    cases hx : f x with
    | none => rw [hx] at h; cases h
    | some y =>
      rw [hx] at h
      cases hl : l.mapM f with
      | none => rw [hl] at h; cases h
      | some r' =>
        rw [hl] at h
        have hr : y :: r' = r := Option.some.inj h
        subst hr
        intro i z hz
        cases i with
        | zero =>
          have hxz : x = z := Option.some.inj hz
          subst hxz
          exact ⟨y, rfl, hx⟩
        | succ i => exact mapM_get hl i z (by simpa using hz)

theorem mapM_length {α β : Type} {f : α → Option β} : ∀ {l : List α} {r : List β},
    l.mapM f = some r → r.length = l.length
  | [], r, h => by
    have : r = [] := by simpa using h.symm
    subst this; rfl
  | x :: l, r, h => by
    rw [mapM_cons'] at h
    cases hx : f x with
    | none => rw [hx] at h; cases h
    | some y =>
      rw [hx] at h
      cases hl : l.mapM f with
      | none => rw [hl] at h; cases h
      | some r' =>
        rw [hl] at h
        have hr : y :: r' = r := Option.some.inj h
        subst hr
        simp [mapM_length hl]

theorem mapM_dropLast {α β : Type} {f : α → Option β} : ∀ {l : List α} {r : List β},
    l.mapM f = some r → l.dropLast.mapM f = some r.dropLast
  | [], r, h => by
    have : r = [] := by simpa using h.symm
    subst this; rfl
  | [x], r, h => by
    have := mapM_length h
    match r, this with
    | [y], _ => rfl
  | x :: x' :: l, r, h => by
    rw [mapM_cons'] at h
    cases hx : f x with
    | none => rw [hx] at h; cases h
    | some y =>
      rw [hx] at h
      cases hl : (x' :: l).mapM f with
      | none => rw [hl] at h; cases h
      | some r' =>
        rw [hl] at h
        have hr : y :: r' = r := Option.some.inj h
        subst hr
        have hlen := mapM_length hl
        match r', hlen, hl with
        | y' :: r'', _, hl =>
          show (x :: (x' :: l).dropLast).mapM f = some (y :: (y' :: r'').dropLast)
          rw [mapM_cons', hx, mapM_dropLast hl]; rfl

theorem mapM_set {α β : Type} {f : α → Option β} {z : α} {u : β} (hz : f z = some u) :
    ∀ {l : List α} {r : List β} (i : Nat), l.mapM f = some r →
      (l.set i z).mapM f = some (r.set i u)
  | [], r, i, h => by
    have : r = [] := by simpa using h.symm
    subst this; simp
  | x :: l, r, i, h => by
    rw [mapM_cons'] at h
    cases hx : f x with
    | none => rw [hx] at h; cases h
    | some y =>
      rw [hx] at h
      cases hl : l.mapM f with
      | none => rw [hl] at h; cases h
      | some r' =>
        rw [hl] at h
        have hr : y :: r' = r := Option.some.inj h
        subst hr
        cases i with
        | zero =>
          show (z :: l).mapM f = some (u :: r')
          rw [mapM_cons', hz, hl]; rfl
        | succ i =>
          show (x :: l.set i z).mapM f = some (y :: r'.set i u)
          rw [mapM_cons', hx, mapM_set hz i hl]; rfl

/-- **C113** (taking off).  `Pop` takes the last entry off the tree of the receiver and
returns a context that stands for it; nil if there is none. -/
theorem C113_pop (o : Outside) (m : Mem) (u v a : Nat) (w : Word) (b : Bool) (cs : List BCtx)
    (hv : m.vars v = some (.stack a)) (hs : Stands m (.stack a) (.rules w b cs)) :
    Stands (m.exec o (.pop u v)) (.stack a) (.rules w b cs.dropLast) ∧
    match cs.getLast? with
    | none => (m.exec o (.pop u v)).vars u = none
    | some d => ∃ e, (m.exec o (.pop u v)).vars u = some e ∧ Stands (m.exec o (.pop u v)) e d := by
  obtain ⟨c, n, hc, rfl, rfl, hes, hno⟩ := stands_stack hs
  have hent : m.entries v = c.es := by simp [Mem.entries, hv, hc]
  have hvar : (m.exec o (.pop u v)).vars u = c.es.getLast? := by
    simp [Mem.exec, Mem.put, hent]
  refine ⟨change_stands (f := fun c => { c with es := c.es.dropLast }) hv hc (mapM_dropLast hes)
    fun e he => hno e (mem_dropLast he), ?_⟩
  rw [hvar]
  have hlen := mapM_length hes
  cases hl : cs.getLast? with
  | none =>
    have : cs = [] := by simpa using hl
    rw [this] at hlen
    have : c.es = [] := List.eq_nil_of_length_eq_zero hlen.symm
    simp [this]
  | some d =>
    cases hl' : c.es.getLast? with
    | none =>
      have : c.es = [] := by simpa using hl'
      rw [this] at hlen
      have : cs = [] := List.eq_nil_of_length_eq_zero hlen
      rw [this] at hl; cases hl
    | some e =>
      refine ⟨e, rfl, n, ?_⟩
      have h1 := List.getLast?_eq_getElem? ▸ hl'
      obtain ⟨y, hy, hfy⟩ := mapM_get hes _ e h1
      have h2 := List.getLast?_eq_getElem? ▸ hl
      rw [hlen] at h2
      rw [h2] at hy
      cases hy
      exact (tree_frame (change_frame hv fun c => { c with es := c.es.dropLast }) n e
        (hno e (List.mem_of_getLast? hl'))).trans hfy

/-- **C113** (looking).  `Index` returns a context that stands for the entry of this number,
and changes nothing. -/
theorem C113_index (o : Outside) (m : Mem) (u v a : Nat) (w : Word) (b : Bool) (cs : List BCtx)
    (hv : m.vars v = some (.stack a)) (hs : Stands m (.stack a) (.rules w b cs))
    (i : Nat) (d : BCtx) (hi : cs[i]? = some d) :
    (m.exec o (.index u v i)).heap = m.heap ∧
    ∃ e, (m.exec o (.index u v i)).vars u = some e ∧ Stands (m.exec o (.index u v i)) e d := by
  obtain ⟨c, n, hc, rfl, rfl, hes, hno⟩ := stands_stack hs
  refine ⟨rfl, ?_⟩
  have hent : m.entries v = c.es := by simp [Mem.entries, hv, hc]
  have hlt : i < c.es.length := by
    rw [← mapM_length hes]; exact (List.getElem?_eq_some_iff.mp hi).1
  have hvar : (m.exec o (.index u v i)).vars u = c.es[i]? := by
    have : indexAt o c.es (i : Int) = c.es[i]? := by
      unfold indexAt
      rw [if_pos ⟨by omega, by omega⟩]; simp
    simp [Mem.exec, Mem.put, hent, this]
  refine ⟨c.es[i], hvar.trans (List.getElem?_eq_getElem hlt), n, ?_⟩
  obtain ⟨y, hy, hfy⟩ := mapM_get hes i _ (List.getElem?_eq_getElem hlt)
  rw [hi] at hy
  cases hy
  exact hfy

/-- **C113** (replacing).  `Replace` with a context that does not contain the receiver puts
its tree in the place of the entry of this number. -/
theorem C113_replace (o : Outside) (m : Mem) (v x a : Nat) (w : Word) (b : Bool) (cs : List BCtx)
    (hv : m.vars v = some (.stack a)) (hs : Stands m (.stack a) (.rules w b cs))
    (e : Ent) (d : BCtx) (hx : m.vars x = some e) (hd : Stands m e d) (he : ¬ Contains m e a)
    (i : Nat) (hi : i < cs.length) :
    Stands (m.exec o (.replace v x i)) (.stack a) (.rules w b (cs.set i d)) := by
  obtain ⟨c, n, hc, rfl, rfl, hes, hno⟩ := stands_stack hs
  obtain ⟨k, hk⟩ := hd
  have hlt : i < c.es.length := by rw [← mapM_length hes]; exact hi
  have hr : replaceAt o c.es (m.vars x) (i : Int) = c.es.set i e := by
    rw [hx]
    simp only [replaceAt]
    rw [if_pos ⟨by omega, by omega⟩]; simp
  have key : (replaceAt o c.es (m.vars x) (i : Int)).mapM (treeIn m.heap (max n k)) = some (cs.set i d) := by
    rw [hr]
    exact mapM_set (tree_mono (Nat.le_max_right _ _) hk) i
      (mapM_mono (fun _ _ _ hy => tree_mono (Nat.le_max_left _ _) hy) hes)
  refine change_stands (f := fun c => { c with es := replaceAt o c.es (m.vars x) i }) hv hc key ?_
  intro y hy
  have hy' : y ∈ c.es.set i e := by rw [← hr]; exact hy
  rcases List.mem_or_eq_of_mem_set hy' with hy | hy
  · exact hno y hy
  · rw [hy]; exact he

/-- **C113** (parentheses).  `Paren` sets the parentheses of the tree. -/
theorem C113_paren (o : Outside) (m : Mem) (v a : Nat) (w : Word) (b b' : Bool) (cs : List BCtx)
    (hv : m.vars v = some (.stack a)) (hs : Stands m (.stack a) (.rules w b cs)) :
    Stands (m.exec o (.paren v b')) (.stack a) (.rules w b' cs) := by
  obtain ⟨c, n, hc, rfl, rfl, hes, hno⟩ := stands_stack hs
  exact change_stands (f := fun c => { c with paren := b' }) hv hc hes hno

/-! ### Circles, and examples -/

/-- **C113** (itself).  After any program, a stack that is pushed into itself can not be
printed, nor anything that contains it. -/
theorem C113_itself (P : Printer) (o : Outside) (p : List Stmt) (v a : Nat)
    (hv : (Mem.empty.run o p).vars v = some (.stack a)) (e : Ent)
    (he : Contains ((Mem.empty.run o p).exec o (.push v [some v])) e a) (t : Str) :
    ¬ Prints P ((Mem.empty.run o p).exec o (.push v [some v])) e t := by
  have hf : Fit (Mem.empty.run o p) := Fit.run p .empty
  generalize Mem.empty.run o p = m at hv he hf
  intro h
  refine (C113_iff P _ e).mp ⟨t, h⟩ ⟨a, he, .here ?_⟩
  have hlt : a < m.heap.length := hf.1 v a hv
  have hcell : m.heap[a]? = some m.heap[a] := List.getElem?_eq_getElem hlt
  refine ⟨{ m.heap[a] with es := m.heap[a].es ++ [.stack a] }, ?_, by simp⟩
  simp only [Mem.exec, Mem.change, hv]
  rw [modify_at _ hcell]
  simp only [List.map_cons, List.map_nil]
  rw [show m.arg (some v) = some (.stack a) from hv]
  rfl

/-- go-stackage, for the examples. -/
def plainOutside : Outside where
  stop := true
  index _ _ := none
  index_mem _ _ _ h := nomatch h
  replace es _ _ := es
  replace_mem _ _ _ _ h := .inl h

/-- Texts, for the examples. -/
def plainTexts : Printer := ⟨fun | .text s => [s] | _ => [], fun _ _ => []⟩

/-- A rule with this keyword and value. -/
def sample (kw : BindKeyword) (s : Str) : BRule := BR (.bind kw) (.cop Eq') (.text s)

/-- **C113** fails: `r := And(); r.Push(r)`. -/
theorem C113_counterexample : ¬ C113_claim := by
  intro h
  obtain ⟨t, ht⟩ := h plainTexts plainOutside [.make 0 .and [], .push 0 [some 0]] 0 (.stack 0) rfl
  exact C113_itself plainTexts plainOutside [.make 0 .and []] 0 0 rfl (.stack 0) ⟨0, rfl, .inl rfl⟩ t ht

/-- A circle of two stacks: `a := And(); b := Or(a); a.Push(b)`. -/
example : Within (Mem.empty.run plainOutside
      [.make 0 .and [], .make 1 .or [some 0], .push 0 [some 1]]) 0 0 :=
  .there (b := 1) ⟨_, rfl, by simp [stackPush, accept, Mem.exec, Mem.put, Mem.arg, Mem.empty]⟩
    (.here ⟨_, rfl, by simp [stackPush, accept, Mem.exec, Mem.put, Mem.arg, Mem.empty]⟩)

/-- The hypothesis of `C113_partial` and of `C113_push_iff`, with a push that is none of
these: `a := And(r); b := Or(s); a.Push(b)`. -/
def sampleProgram : List Stmt :=
  [.rule 5 (sample BindUDN b!"x"), .rule 6 (sample BindDNS b!"y"), .make 0 .and [some 5],
    .make 1 .or [some 6], .push 0 [some 1]]

theorem sample_entries (a b : Nat) : ¬ Entry (Mem.empty.run plainOutside (sampleProgram.take 4)) a b := by
  rintro ⟨c, hc, hb⟩
  have : (Mem.empty.run plainOutside (sampleProgram.take 4)).heap =
      [⟨.and, false, [.rule (sample BindUDN b!"x")]⟩, ⟨.or, false, [.rule (sample BindDNS b!"y")]⟩] := by
    rfl
  rw [this] at hc
  match a, hc with
  | 0, hc => cases hc; simp at hb
  | 1, hc => cases hc; simp at hb
  | a + 2, hc => simp at hc

example : CarefulRun plainOutside Mem.empty sampleProgram := by
  refine ⟨trivial, trivial, trivial, trivial, ?_, trivial⟩
  intro a ha x e hx he ⟨b, hb, hu⟩
  have ha' : a = 0 := by cases ha; rfl
  have hx' : x = 1 := by simpa using hx
  subst hx'
  have he' : some (Ent.stack 1) = some e := he
  cases he'
  cases hb
  subst ha'
  rcases hu with hu | hu
  · cases hu
  · obtain ⟨d, hd, _⟩ := within_head hu
    exact sample_entries 1 d hd

example : textIn plainTexts (Mem.empty.run plainOutside sampleProgram).heap 2 (.stack 0) =
    some b!"userdn = \"x\" AND dns = \"y\"" := by decide +kernel

example : treeIn (Mem.empty.run plainOutside sampleProgram).heap 2 (.stack 0) =
    some (.rules .and false [.rule (sample BindUDN b!"x"),
      .rules .or false [.rule (sample BindDNS b!"y")]]) := rfl

theorem sample_stands : Stands (Mem.empty.run plainOutside (sampleProgram.take 4)) (.stack 0)
    (.rules .and false [.rule (sample BindUDN b!"x")]) := ⟨1, rfl⟩

/-- The hypotheses of `C113_push`, `C113_make`, `C113_pop`, `C113_index`, `C113_replace` and
`C113_paren`. -/
example : (Mem.empty.run plainOutside (sampleProgram.take 4)).vars 0 = some (.stack 0) ∧
    (∀ x ∈ [some 1, some 6, some 9, none], match (Mem.empty.run plainOutside (sampleProgram.take 4)).arg x with
      | none => ∃ y, y = BArg.other
      | some e => ¬ Contains (Mem.empty.run plainOutside (sampleProgram.take 4)) e 0 ∧
        ∃ c, Stands (Mem.empty.run plainOutside (sampleProgram.take 4)) e c) := by
  refine ⟨rfl, fun x hx => ?_⟩
  simp only [List.mem_cons, List.not_mem_nil, or_false] at hx
  rcases hx with rfl | rfl | rfl | rfl
  · refine ⟨?_, _, 1, rfl⟩
    rintro ⟨b, hb, hu⟩
    have hb' : Ent.stack 1 = .stack b := hb
    cases hb'
    rcases hu with hu | hu
    · cases hu
    · obtain ⟨d, hd, _⟩ := within_head hu
      exact sample_entries 1 d hd
  · refine ⟨?_, _, 0, rfl⟩
    rintro ⟨b, hb, _⟩
    have hb' : Ent.rule (sample BindDNS b!"y") = .stack b := hb
    cases hb'
  · exact ⟨_, rfl⟩
  · exact ⟨_, rfl⟩

/-! ## C114 -/

/-- The claim: a call on one stack leaves the texts of all other variables. -/
def C114_claim : Prop :=
  ∀ (P : Printer) (o : Outside) (p : List Stmt) (s : Stmt) (w : Nat) (e : Ent) (t : Str),
    s.assigned ≠ some w → s.target ≠ some w → (Mem.empty.run o p).vars w = some e →
    Prints P (Mem.empty.run o p) e t → Prints P ((Mem.empty.run o p).exec o s) e t

theorem exec_frame {o : Outside} {m : Mem} (hf : Fit m) (s : Stmt) (e : Ent)
    (he : ∀ b, e = .stack b → b < m.heap.length)
    (ht : ∀ v a, s.target = some v → m.vars v = some (.stack a) → ¬ Contains m e a) (n : Nat) :
    treeIn (m.exec o s).heap n e = treeIn m.heap n e := by
  have change : ∀ (v : Nat) (f : Cell → Cell), s.target = some v →
      treeIn (m.change v f).heap n e = treeIn m.heap n e := by
    intro v f hv
    cases hx : m.vars v with
    | none => simp only [Mem.change, hx]
    | some x =>
      cases x with
      | rule r => simp only [Mem.change, hx]
      | zero => simp only [Mem.change, hx]
      | stack a => exact tree_frame (change_frame hx f) n e (ht v a hv hx)
  cases s with
  | rule v r => rfl
  | zero v => rfl
  | copy w v => rfl
  | index w v i => rfl
  | make v w xs => exact tree_append hf _ n e he
  | push v xs => exact change v _ rfl
  | replace v x i => exact change v _ rfl
  | paren v b => exact change v _ rfl
  | pop w v => exact change v _ rfl

theorem exec_vars {o : Outside} {m : Mem} (s : Stmt) (w : Nat) (h : s.assigned ≠ some w) :
    (m.exec o s).vars w = m.vars w := by
  have put : ∀ (m' : Mem) (v : Nat) (x : Option Ent), some v ≠ some w → (m'.put v x).vars w = m'.vars w := by
    intro m' v x hv
    simp only [Mem.put]
    exact if_neg fun e => hv (by rw [e])
  cases s with
  | rule v r => exact put _ v _ h
  | zero v => exact put _ v _ h
  | copy u v => exact put _ u _ h
  | index u v i => exact put _ u _ h
  | make v u xs => exact put _ v _ h
  | push v xs => exact congrFun change_vars w
  | replace v x i => exact congrFun change_vars w
  | paren v b => exact congrFun change_vars w
  | pop u v => exact (put _ u _ h).trans (congrFun change_vars w)

/-- **C114** (partial).  After any program, a statement leaves the text of every variable
it does not assign to, unless it is a call on a stack that this variable holds, directly
or nested at any depth.  Missing for the full claim: such calls, see `C114_shows`. -/
theorem C114_frame_partial (P : Printer) (o : Outside) (p : List Stmt) (s : Stmt) (w : Nat) (e : Ent)
    (hs : s.assigned ≠ some w) (hw : (Mem.empty.run o p).vars w = some e)
    (ht : ∀ v a, s.target = some v → (Mem.empty.run o p).vars v = some (.stack a) →
      ¬ Contains (Mem.empty.run o p) e a) :
    ((Mem.empty.run o p).exec o s).vars w = some e ∧
    ∀ t, Prints P ((Mem.empty.run o p).exec o s) e t ↔ Prints P (Mem.empty.run o p) e t := by
  have hf : Fit (Mem.empty.run o p) := Fit.run p .empty
  generalize Mem.empty.run o p = m at hw ht hf
  refine ⟨(exec_vars s w hs).trans hw, fun t => ?_⟩
  have key := exec_frame (o := o) hf s e (by rintro b rfl; exact hf.1 w b hw) ht
  unfold Prints
  simp only [text_tree, key]

theorem join_part (sep : Str) : ∀ (ts : List Str) (s : Str), s ∈ ts → ∃ l r, Str.join sep ts = l ++ s ++ r
  | [], _, h => by cases h
  | [t], s, h => by
    rw [List.mem_singleton] at h
    subst h
    exact ⟨[], [], by simp [Str.join]⟩
  | t :: t' :: ts, s, h => by
    have e : Str.join sep (t :: t' :: ts) = t ++ sep ++ Str.join sep (t' :: ts) := rfl
    rcases List.mem_cons.mp h with rfl | h
    · exact ⟨[], sep ++ Str.join sep (t' :: ts), by rw [e]; simp⟩
    · obtain ⟨l, r, hlr⟩ := join_part sep (t' :: ts) s h
      exact ⟨t ++ sep ++ l, r, by rw [e, hlr]; simp⟩

theorem wrap_part (b : Bool) (s : Str) : ∃ l r, wrapIf b s = l ++ s ++ r := by
  cases b
  · exact ⟨[], [], by simp [wrapIf]⟩
  · exact ⟨b!"( ", b!" )", rfl⟩

theorem mapM_mem {α β : Type} {f : α → Option β} : ∀ {l : List α} {r : List β},
    l.mapM f = some r → ∀ x ∈ l, ∀ y, f x = some y → y ∈ r
  | [], _, _ => by simp
  | x :: l, r, h => by
    rw [mapM_cons'] at h
    cases hx : f x with
    | none => rw [hx] at h; cases h
    | some y =>
      rw [hx] at h
      cases hl : l.mapM f with
      | none => rw [hl] at h; cases h
      | some r' =>
        rw [hl] at h
        have hr : y :: r' = r := Option.some.inj h
        subst hr
        intro z hz u hu
        rcases List.mem_cons.mp hz with rfl | hz
        · rw [hx] at hu; cases hu; simp
        · exact List.mem_cons_of_mem _ (mapM_mem hl z hz u hu)

/-- **C114** (what is shown).  An AND or OR stack shows the text that each of its entries
has when it is printed, not when it was pushed. -/
theorem C114_shows (P : Printer) (m : Mem) (a : Nat) (c : Cell) (hc : m.heap[a]? = some c)
    (hw : c.word ≠ .not) (e : Ent) (he : e ∈ c.es) (s t : Str) (hs : Prints P m e s)
    (ht : Prints P m (.stack a) t) : ∃ l r, t = l ++ s ++ r := by
  by_cases hse : s = []
  · exact ⟨[], t, by simp [hse]⟩
  obtain ⟨d, ⟨n, hn⟩, rfl⟩ := (prints_stands P m e s).mp hs
  obtain ⟨d', ⟨n', hn'⟩, rfl⟩ := (prints_stands P m _ t).mp ht
  replace hn := tree_mono (Nat.le_max_left n n') hn
  replace hn' := tree_mono (show n' ≤ max n n' + 1 by omega) hn'
  unfold treeIn at hn'
  rw [hc] at hn'
  replace hn' : Option.map _ _ = _ := hn'
  cases hr : c.es.mapM (treeIn m.heap (max n n')) with
  | none => rw [hr] at hn'; cases hn'
  | some cs =>
    rw [hr] at hn'
    have hd : BCtx.rules c.word c.paren cs = d' := Option.some.inj hn'
    subst hd
    have hm : d ∈ cs := mapM_mem hr e he d hn
    show ∃ l r, stackText P.many c.word c.paren (BCtx.texts P.val P.many cs) = _
    rw [texts_filter]
    have hin : d.text P.val P.many ∈ (cs.map (BCtx.text P.val P.many)).filter (· ≠ []) := by
      rw [List.mem_filter]
      exact ⟨List.mem_map.mpr ⟨d, hm, rfl⟩, by simpa using hse⟩
    generalize (cs.map (BCtx.text P.val P.many)).filter (· ≠ []) = ts at hin
    have both : ∀ sep : Str, ∃ l r, wrapIf c.paren (Str.join sep ts) = l ++ d.text P.val P.many ++ r := by
      intro sep
      obtain ⟨l, r, h1⟩ := join_part sep ts _ hin
      obtain ⟨l', r', h2⟩ := wrap_part c.paren (Str.join sep ts)
      exact ⟨l' ++ l, r ++ r', by rw [h2, h1]; simp⟩
    cases ts with
    | nil => cases hin
    | cons t ts =>
      cases hword : c.word with
      | and => exact both b!" AND "
      | or => exact both b!" OR "
      | not => exact absurd hword hw

/-- **C114** fails: `a := And(r); b := Or(a, r); a.Push(s)` changes `b`. -/
theorem C114_counterexample : ¬ C114_claim := by
  intro h
  have h1 : textIn plainTexts (Mem.empty.run plainOutside
      [.rule 5 (sample BindUDN b!"x"), .rule 6 (sample BindDNS b!"y"), .make 0 .and [some 5],
        .make 1 .or [some 0, some 5]]).heap 2 (.stack 1) =
      some b!"userdn = \"x\" OR userdn = \"x\"" := by decide +kernel
  obtain ⟨n, hn⟩ := h plainTexts plainOutside _ (.push 0 [some 6]) 1 (.stack 1) _ (by decide) (by decide) rfl
    ⟨2, h1⟩
  have h2 : textIn plainTexts ((Mem.empty.run plainOutside
      [.rule 5 (sample BindUDN b!"x"), .rule 6 (sample BindDNS b!"y"), .make 0 .and [some 5],
        .make 1 .or [some 0, some 5]]).exec plainOutside (.push 0 [some 6])).heap 2 (.stack 1) =
      some b!"userdn = \"x\" AND dns = \"y\" OR userdn = \"x\"" := by decide +kernel
  rw [text_tree] at hn h2
  cases hc : treeIn ((Mem.empty.run plainOutside
      [.rule 5 (sample BindUDN b!"x"), .rule 6 (sample BindDNS b!"y"), .make 0 .and [some 5],
        .make 1 .or [some 0, some 5]]).exec plainOutside (.push 0 [some 6])).heap 2 (.stack 1) with
  | none => rw [hc] at h2; cases h2
  | some c =>
    cases hc' : treeIn ((Mem.empty.run plainOutside
      [.rule 5 (sample BindUDN b!"x"), .rule 6 (sample BindDNS b!"y"), .make 0 .and [some 5],
        .make 1 .or [some 0, some 5]]).exec plainOutside (.push 0 [some 6])).heap n (.stack 1) with
    | none => rw [hc'] at hn; cases hn
    | some c' =>
      rw [hc] at h2
      rw [hc'] at hn
      have := stands_only (m := (Mem.empty.run plainOutside
        [.rule 5 (sample BindUDN b!"x"), .rule 6 (sample BindDNS b!"y"), .make 0 .and [some 5],
          .make 1 .or [some 0, some 5]]).exec plainOutside (.push 0 [some 6])) ⟨2, hc⟩ ⟨n, hc'⟩
      subst this
      exact absurd ((Option.some.inj hn).symm.trans (Option.some.inj h2)) (by decide)

/-- The hypotheses of `C114_frame_partial`: a push into the first of two stacks that do not
hold each other leaves the second. -/
example : ∀ v a, (Stmt.push 0 [some 1]).target = some v →
    (Mem.empty.run plainOutside (sampleProgram.take 4)).vars v = some (.stack a) →
    ¬ Contains (Mem.empty.run plainOutside (sampleProgram.take 4)) (.stack 1) a := by
  rintro v a hv ha ⟨b, hb, hu⟩
  cases hv
  have ha' : a = 0 := by cases ha; rfl
  cases hb
  subst ha'
  rcases hu with hu | hu
  · cases hu
  · obtain ⟨d, hd, _⟩ := within_head hu
    exact sample_entries 1 d hd

end Verif.Nest
