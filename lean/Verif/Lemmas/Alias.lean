import Verif.Spec.Alias

/-!
# Programs that run side by side

`Sim W ρ m n`: the variables in `W` stand for the same in the memories `m` and `n`, where
`ρ` says which address of `m` corresponds to which of `n`, and no variable outside `W`
holds one of these addresses in `m`.
-/

namespace Verif.Alias
open Verif

variable {K : Cls}

/-- Every pointer leads to storage. -/
def Mem.Wf (m : Mem K) : Prop := ∀ v a, (m.vars v).ptr = some a → a < m.heap.length

/-- Two structs agree, up to addresses. -/
def RefRel (ρ : Nat → Nat → Prop) (r s : Ref K) : Prop :=
  r.tag = s.tag ∧
    ((r.ptr = none ∧ s.ptr = none) ∨ ∃ a b, r.ptr = some a ∧ s.ptr = some b ∧ ρ a b)

/-- See above. -/
structure Sim (W : Nat → Bool) (ρ : Nat → Nat → Prop) (m n : Mem K) : Prop where
  wf : m.Wf
  fn : ∀ a b b', ρ a b → ρ a b' → b = b'
  inj : ∀ a a' b, ρ a b → ρ a' b → a = a'
  here : ∀ a b, ρ a b → a < m.heap.length ∧ b < n.heap.length ∧ m.heap[a]? = n.heap[b]?
  inside : ∀ w, W w = true → RefRel ρ (m.vars w) (n.vars w)
  outside : ∀ v a b, W v = false → (m.vars v).ptr = some a → ¬ ρ a b

theorem RefRel.mono {ρ σ : Nat → Nat → Prop} (h : ∀ a b, ρ a b → σ a b) {r s : Ref K}
    (hr : RefRel ρ r s) : RefRel σ r s := by
  obtain ⟨h1, h2⟩ := hr
  refine ⟨h1, ?_⟩
  rcases h2 with h2 | ⟨a, b, x, y, z⟩
  · exact Or.inl h2
  · exact Or.inr ⟨a, b, x, y, h _ _ z⟩

theorem Sim.look {W ρ} {m n : Mem K} (h : Sim W ρ m n) {r s : Ref K} (hr : RefRel ρ r s) :
    m.look r = n.look s := by
  obtain ⟨h1, h2⟩ := hr
  unfold Mem.look
  rw [h1]
  rcases h2 with ⟨x, y⟩ | ⟨a, b, x, y, z⟩
  · rw [x, y]; rfl
  · rw [x, y]
    show (_, m.heap[a]?) = (_, n.heap[b]?)
    rw [(h.here a b z).2.2]

theorem Sim.see {W ρ} {m n : Mem K} (h : Sim W ρ m n) {w : Nat} (hw : W w = true) :
    m.see w = n.see w := h.look (h.inside w hw)

theorem Sim.putIn {W ρ} {m n : Mem K} (h : Sim W ρ m n) {w : Nat} (hw : W w = true)
    {r s : Ref K} (hr : RefRel ρ r s) : Sim W ρ (m.put w r) (n.put w s) where
  wf := by
    intro v a hv
    simp only [Mem.put] at hv ⊢
    split at hv
    · rcases hr.2 with ⟨x, _⟩ | ⟨a', b, x, _, z⟩
      · rw [x] at hv; cases hv
      · rw [x] at hv; cases hv; exact (h.here _ _ z).1
    · exact h.wf v a hv
  fn := h.fn
  inj := h.inj
  here := h.here
  inside := by
    intro v hv
    simp only [Mem.put]
    split
    · exact hr
    · exact h.inside v hv
  outside := by
    intro v a b hv hp
    simp only [Mem.put] at hp
    split at hp
    · next e => rw [e, hw] at hv; cases hv
    · exact h.outside v a b hv hp

theorem Sim.putOut {W ρ} {m n : Mem K} (h : Sim W ρ m n) {v : Nat} (hv : W v = false)
    {r : Ref K} (hr : ∀ a, r.ptr = some a → a < m.heap.length ∧ ∀ b, ¬ ρ a b) :
    Sim W ρ (m.put v r) n where
  wf := by
    intro x a hx
    simp only [Mem.put] at hx ⊢
    split at hx
    · exact (hr a hx).1
    · exact h.wf x a hx
  fn := h.fn
  inj := h.inj
  here := h.here
  inside := by
    intro x hx
    simp only [Mem.put]
    split
    · next e => rw [e, hv] at hx; cases hx
    · exact h.inside x hx
  outside := by
    intro x a b hx hp
    simp only [Mem.put] at hp
    split at hp
    · exact (hr a hp).2 b
    · exact h.outside x a b hx hp

theorem Sim.allocBoth {W ρ} {m n : Mem K} (h : Sim W ρ m n) (o : K.Obj) :
    Sim W (fun a b => ρ a b ∨ (a = m.heap.length ∧ b = n.heap.length)) (m.alloc o) (n.alloc o) where
  wf := by
    intro v a hv
    have := h.wf v a hv
    simp only [Mem.alloc, List.length_append, List.length_cons, List.length_nil]
    omega
  fn := by
    rintro a b b' (h1 | ⟨h1, h2⟩) (h3 | ⟨h3, h4⟩)
    · exact h.fn _ _ _ h1 h3
    · have := (h.here _ _ h1).1; omega
    · have := (h.here _ _ h3).1; omega
    · omega
  inj := by
    rintro a a' b (h1 | ⟨h1, h2⟩) (h3 | ⟨h3, h4⟩)
    · exact h.inj _ _ _ h1 h3
    · have := (h.here _ _ h1).2.1; omega
    · have := (h.here _ _ h3).2.1; omega
    · omega
  here := by
    rintro a b (h1 | ⟨rfl, rfl⟩)
    · obtain ⟨x, y, z⟩ := h.here _ _ h1
      simp only [Mem.alloc, List.length_append, List.length_cons, List.length_nil]
      refine ⟨by omega, by omega, ?_⟩
      rw [List.getElem?_append_left x, List.getElem?_append_left y, z]
    · simp [Mem.alloc]
  inside := fun w hw => (h.inside w hw).mono fun _ _ => Or.inl
  outside := by
    rintro v a b hv hp (h1 | ⟨h1, _⟩)
    · exact h.outside v a b hv hp h1
    · have := h.wf v a hp; omega

theorem Sim.allocLeft {W ρ} {m n : Mem K} (h : Sim W ρ m n) (o : K.Obj) :
    Sim W ρ (m.alloc o) n where
  wf := by
    intro v a hv
    have := h.wf v a hv
    simp only [Mem.alloc, List.length_append, List.length_cons, List.length_nil]
    omega
  fn := h.fn
  inj := h.inj
  here := by
    intro a b h1
    obtain ⟨x, y, z⟩ := h.here _ _ h1
    simp only [Mem.alloc, List.length_append, List.length_cons, List.length_nil]
    refine ⟨by omega, y, ?_⟩
    rw [List.getElem?_append_left x, z]
  inside := h.inside
  outside := h.outside

theorem Sim.storeBoth {W ρ} {m n : Mem K} (h : Sim W ρ m n) {r s : Ref K} (hr : RefRel ρ r s)
    (o : K.Obj) : Sim W ρ (m.store r.ptr o) (n.store s.ptr o) := by
  rcases hr.2 with ⟨x, y⟩ | ⟨a, b, x, y, z⟩
  · rw [x, y]; exact h
  rw [x, y]
  refine ⟨?_, h.fn, h.inj, ?_, h.inside, h.outside⟩
  · intro v c hv
    have := h.wf v c hv
    simpa [Mem.store] using this
  · intro a' b' h1
    obtain ⟨x', y', z'⟩ := h.here _ _ h1
    obtain ⟨x'', y'', _⟩ := h.here _ _ z
    refine ⟨by simpa [Mem.store] using x', by simpa [Mem.store] using y', ?_⟩
    simp only [Mem.store, List.getElem?_set]
    by_cases e : a = a'
    · have e' : b = b' := by subst e; exact h.fn _ _ _ z h1
      subst e; subst e'
      simp [x'', y'']
    · have e' : ¬ b = b' := by
        intro q; subst q; exact e (h.inj _ _ _ z h1)
      simp [e, e', z']

theorem Sim.storeLeft {W ρ} {m n : Mem K} (h : Sim W ρ m n) {p : Option Nat}
    (hp : ∀ a, p = some a → ∀ b, ¬ ρ a b) (o : K.Obj) : Sim W ρ (m.store p o) n := by
  cases p with
  | none => exact h
  | some a =>
    refine ⟨?_, h.fn, h.inj, ?_, h.inside, h.outside⟩
    · intro v c hv
      have := h.wf v c hv
      simpa [Mem.store] using this
    · intro a' b' h1
      obtain ⟨x', y', z'⟩ := h.here _ _ h1
      refine ⟨by simpa [Mem.store] using x', y', ?_⟩
      simp only [Mem.store, List.getElem?_set]
      have e : ¬ a = a' := by
        intro q; subst q; exact hp a rfl b' h1
      simp [e, z']

theorem Sim.invokeBoth {W ρ} {m n : Mem K} (h : Sim W ρ m n) {v : Nat} (hv : W v = true)
    (c : K.Call) :
    ∃ σ, Sim W σ (m.invoke v c).1 (n.invoke v c).1 ∧ RefRel σ (m.invoke v c).2 (n.invoke v c).2 := by
  have hs := h.see hv
  have hr := h.inside v hv
  unfold Mem.invoke
  rw [hs]
  cases K.eff (n.see v).1 (n.see v).2 c with
  | keep => exact ⟨ρ, h, hr⟩
  | write o => exact ⟨ρ, h.storeBoth hr o, hr⟩
  | fresh o =>
    have h1 := h.allocBoth o
    have hn : RefRel (fun a b => ρ a b ∨ (a = m.heap.length ∧ b = n.heap.length))
        (⟨(m.vars v).tag, some m.heap.length⟩ : Ref K) ⟨(n.vars v).tag, some n.heap.length⟩ :=
      ⟨hr.1, Or.inr ⟨_, _, rfl, rfl, Or.inr ⟨rfl, rfl⟩⟩⟩
    exact ⟨_, h1.putIn hv hn, hn⟩
  | give o =>
    exact ⟨_, h.allocBoth o, rfl, Or.inr ⟨_, _, rfl, rfl, Or.inr ⟨rfl, rfl⟩⟩⟩

theorem Sim.invokeLeft {W ρ} {m n : Mem K} (h : Sim W ρ m n) {v : Nat} (hv : W v = false)
    (c : K.Call) :
    Sim W ρ (m.invoke v c).1 n ∧
      ∀ a, (m.invoke v c).2.ptr = some a → a < (m.invoke v c).1.heap.length ∧ ∀ b, ¬ ρ a b := by
  have hn : ∀ a, a = m.heap.length → ∀ b, ¬ ρ a b := by
    intro a e b hb
    have := (h.here a b hb).1
    omega
  unfold Mem.invoke
  cases K.eff (m.see v).1 (m.see v).2 c with
  | keep => exact ⟨h, fun a ha => ⟨h.wf v a ha, fun b => h.outside v a b hv ha⟩⟩
  | write o =>
    refine ⟨h.storeLeft (fun a ha b => h.outside v a b hv ha) o, fun a ha => ⟨?_, fun b => h.outside v a b hv ha⟩⟩
    have := h.wf v a ha
    show a < (m.store (m.vars v).ptr o).heap.length
    unfold Mem.store
    split <;> simpa using this
  | fresh o =>
    refine ⟨(h.allocLeft o).putOut hv ?_, ?_⟩
    · intro a ha
      cases ha
      exact ⟨by simp [Mem.alloc], hn _ rfl⟩
    · intro a ha
      cases ha
      exact ⟨by simp [Mem.alloc, Mem.put], hn _ rfl⟩
  | give o =>
    refine ⟨h.allocLeft o, ?_⟩
    intro a ha
    cases ha
    exact ⟨by simp [Mem.alloc], hn _ rfl⟩

theorem Sim.execBoth {W ρ} {m n : Mem K} (h : Sim W ρ m n) (s : Stmt K)
    (hs : ∀ v ∈ s.names, W v = true) : ∃ σ, Sim W σ (m.exec s) (n.exec s) := by
  cases s with
  | zero v => exact ⟨ρ, h.putIn (hs v (by simp [Stmt.names])) ⟨rfl, Or.inl ⟨rfl, rfl⟩⟩⟩
  | make v x =>
    have hv := hs v (by simp [Stmt.names])
    simp only [Mem.exec]
    split
    · exact ⟨ρ, h.putIn hv ⟨rfl, Or.inl ⟨rfl, rfl⟩⟩⟩
    · next t o _ =>
      exact ⟨_, (h.allocBoth o).putIn hv ⟨rfl, Or.inr ⟨_, _, rfl, rfl, Or.inr ⟨rfl, rfl⟩⟩⟩⟩
  | copy w v =>
    exact ⟨ρ, h.putIn (hs w (by simp [Stmt.names])) (h.inside v (hs v (by simp [Stmt.names])))⟩
  | call v c =>
    obtain ⟨σ, h1, _⟩ := h.invokeBoth (hs v (by simp [Stmt.names])) c
    exact ⟨σ, h1⟩
  | assign w v c =>
    obtain ⟨σ, h1, h2⟩ := h.invokeBoth (hs v (by simp [Stmt.names])) c
    exact ⟨σ, h1.putIn (hs w (by simp [Stmt.names])) h2⟩

theorem Sim.execLeft {W ρ} {m n : Mem K} (h : Sim W ρ m n) (s : Stmt K)
    (hs : ∀ v ∈ s.names, W v = false) : Sim W ρ (m.exec s) n := by
  cases s with
  | zero v => exact h.putOut (hs v (by simp [Stmt.names])) (by intro a ha; cases ha)
  | make v x =>
    have hv := hs v (by simp [Stmt.names])
    simp only [Mem.exec]
    split
    · exact h.putOut hv (by intro a ha; cases ha)
    · next t o _ =>
      refine (h.allocLeft o).putOut hv ?_
      intro a ha
      cases ha
      refine ⟨by simp [Mem.alloc], fun b hb => ?_⟩
      have := (h.here _ b hb).1
      omega
  | copy w v =>
    have hv := hs v (by simp [Stmt.names])
    exact h.putOut (hs w (by simp [Stmt.names])) fun a ha =>
      ⟨h.wf v a ha, fun b => h.outside v a b hv ha⟩
  | call v c => exact (h.invokeLeft (hs v (by simp [Stmt.names])) c).1
  | assign w v c =>
    obtain ⟨h1, h2⟩ := h.invokeLeft (hs v (by simp [Stmt.names])) c
    exact h1.putOut (hs w (by simp [Stmt.names])) h2

theorem Sim.run {W} (p : List (Stmt K)) (hp : Closed W p) {ρ} {m n : Mem K} (h : Sim W ρ m n) :
    ∃ σ, Sim W σ (m.run p) (n.run (p.filter (Stmt.within W))) := by
  induction p generalizing ρ m n with
  | nil => exact ⟨ρ, h⟩
  | cons s p ih =>
    have hp' : Closed W p := fun s' hs' => hp s' (List.mem_cons_of_mem _ hs')
    have hc := hp s List.mem_cons_self
    cases hw : s.within W with
    | true =>
      obtain ⟨v, hv, hWv⟩ := List.any_eq_true.mp hw
      obtain ⟨σ, h1⟩ := h.execBoth s fun u hu => (hc u hu v hv).trans hWv
      rw [List.filter_cons_of_pos hw]
      exact ih hp' h1
    | false =>
      have h1 := h.execLeft s fun u hu => by
        have := List.any_eq_false.mp hw u hu
        simpa using this
      rw [List.filter_cons_of_neg (by simp [hw])]
      exact ih hp' h1

theorem Sim.start (W : Nat → Bool) : Sim W (fun _ _ => False) (Mem.empty K) (Mem.empty K) where
  wf := by intro v a h; cases h
  fn := by intro _ _ _ h; exact h.elim
  inj := by intro _ _ _ h; exact h.elim
  here := by intro _ _ h; exact h.elim
  inside := fun _ _ => ⟨rfl, Or.inl ⟨rfl, rfl⟩⟩
  outside := by intro _ _ _ _ _ h; exact h.elim

theorem wf_run (p : List (Stmt K)) : ((Mem.empty K).run p).Wf := by
  obtain ⟨σ, h⟩ := Sim.run p (W := fun _ => true) (fun _ _ _ _ _ _ => rfl) (Sim.start (K := K) _)
  exact h.wf

/-- The addresses in `A` keep what they have in `m`, and no variable outside `W` holds one
of them. -/
structure Holds (W : Nat → Bool) (A : Nat → Prop) (m n : Mem K) : Prop where
  wf : n.Wf
  same : ∀ a, A a → a < n.heap.length ∧ n.heap[a]? = m.heap[a]?
  outside : ∀ v a, W v = false → (n.vars v).ptr = some a → ¬ A a

theorem Holds.alloc {W A} {m n : Mem K} (h : Holds W A m n) (o : K.Obj) :
    Holds W A m (n.alloc o) where
  wf := by
    intro v a hv
    have := h.wf v a hv
    simp only [Mem.alloc, List.length_append, List.length_cons, List.length_nil]
    omega
  same := by
    intro a ha
    obtain ⟨x, y⟩ := h.same a ha
    simp only [Mem.alloc, List.length_append, List.length_cons, List.length_nil]
    exact ⟨by omega, by rw [List.getElem?_append_left x, y]⟩
  outside := h.outside

theorem Holds.put {W A} {m n : Mem K} (h : Holds W A m n) {v : Nat} {r : Ref K}
    (hr : ∀ a, r.ptr = some a → a < n.heap.length)
    (ho : W v = false → ∀ a, r.ptr = some a → ¬ A a) : Holds W A m (n.put v r) where
  wf := by
    intro x a hx
    simp only [Mem.put] at hx ⊢
    split at hx
    · exact hr a hx
    · exact h.wf x a hx
  same := h.same
  outside := by
    intro x a hx hp
    simp only [Mem.put] at hp
    split at hp
    · next e => subst e; exact ho hx a hp
    · exact h.outside x a hx hp

theorem Holds.store {W A} {m n : Mem K} (h : Holds W A m n) {p : Option Nat}
    (hp : ∀ a, p = some a → ¬ A a) (o : K.Obj) : Holds W A m (n.store p o) := by
  cases p with
  | none => exact h
  | some b =>
    refine ⟨?_, ?_, h.outside⟩
    · intro v a hv
      have := h.wf v a hv
      simpa [Mem.store] using this
    · intro a ha
      obtain ⟨x, y⟩ := h.same a ha
      have e : ¬ b = a := by intro q; subst q; exact hp b rfl ha
      exact ⟨by simpa [Mem.store] using x, by simp [Mem.store, e, y]⟩

theorem Holds.invoke {W A} {m n : Mem K} (h : Holds W A m n) {v : Nat} (hv : W v = false)
    (c : K.Call) :
    Holds W A m (n.invoke v c).1 ∧
      ∀ a, (n.invoke v c).2.ptr = some a → a < (n.invoke v c).1.heap.length ∧ ¬ A a := by
  have hn : ∀ a, a = n.heap.length → ¬ A a := by
    intro a e ha
    have := (h.same a ha).1
    omega
  unfold Mem.invoke
  cases K.eff (n.see v).1 (n.see v).2 c with
  | keep => exact ⟨h, fun a ha => ⟨h.wf v a ha, h.outside v a hv ha⟩⟩
  | write o =>
    refine ⟨h.store (fun a ha => h.outside v a hv ha) o, fun a ha => ⟨?_, h.outside v a hv ha⟩⟩
    have := h.wf v a ha
    show a < (n.store (n.vars v).ptr o).heap.length
    unfold Mem.store
    split <;> simpa using this
  | fresh o =>
    refine ⟨(h.alloc o).put ?_ ?_, ?_⟩
    · intro a ha; cases ha; simp [Mem.alloc]
    · intro _ a ha; cases ha; exact hn _ rfl
    · intro a ha; cases ha; exact ⟨by simp [Mem.alloc, Mem.put], hn _ rfl⟩
  | give o =>
    refine ⟨h.alloc o, ?_⟩
    intro a ha; cases ha; exact ⟨by simp [Mem.alloc], hn _ rfl⟩

theorem Holds.exec {W A} {m n : Mem K} (h : Holds W A m n) (s : Stmt K)
    (hc : ∀ v ∈ s.names, ∀ w ∈ s.names, W v = W w)
    (hq : ∀ v, s.caller = some v → W v = false) : Holds W A m (n.exec s) := by
  have hn : ∀ a, a = n.heap.length → ¬ A a := by
    intro a e ha
    have := (h.same a ha).1
    omega
  cases s with
  | zero v => exact h.put (by intro a ha; cases ha) (by intro _ a ha; cases ha)
  | make v x =>
    simp only [Mem.exec]
    split
    · exact h.put (by intro a ha; cases ha) (by intro _ a ha; cases ha)
    · exact (h.alloc _).put (by intro a ha; cases ha; simp [Mem.alloc])
        (by intro _ a ha; cases ha; exact hn _ rfl)
  | copy w v =>
    have hwv := hc w (by simp [Stmt.names]) v (by simp [Stmt.names])
    exact h.put (h.wf v) fun hw a ha => h.outside v a (hwv ▸ hw) ha
  | call v c => exact (h.invoke (hq v rfl) c).1
  | assign w v c =>
    obtain ⟨h1, h2⟩ := h.invoke (hq v rfl) c
    exact h1.put (fun a ha => (h2 a ha).1) fun _ a ha => (h2 a ha).2

theorem Holds.run {W A} (q : List (Stmt K)) (hc : Closed W q) (hq : Quiet W q) {m n : Mem K}
    (h : Holds W A m n) : Holds W A m (n.run q) := by
  induction q generalizing n with
  | nil => exact h
  | cons s q ih =>
    exact ih (fun s' hs' => hc s' (List.mem_cons_of_mem _ hs'))
      (fun s' hs' => hq s' (List.mem_cons_of_mem _ hs'))
      (h.exec s (hc s List.mem_cons_self) (hq s List.mem_cons_self))

theorem Holds.start {W : Nat → Bool} (p : List (Stmt K)) (hp : Closed W p) :
    Holds W (fun a => ∃ v, W v = true ∧ (((Mem.empty K).run p).vars v).ptr = some a)
      ((Mem.empty K).run p) ((Mem.empty K).run p) where
  wf := wf_run p
  same := by rintro a ⟨v, _, hv⟩; exact ⟨wf_run p v a hv, rfl⟩
  outside := by
    rintro v a hv ha ⟨w, hw, hwa⟩
    obtain ⟨σ, h⟩ := Sim.run p hp (Sim.start (K := K) W)
    rcases (h.inside w hw).2 with ⟨x, _⟩ | ⟨a', b, x, _, z⟩
    · rw [x] at hwa; cases hwa
    · rw [x] at hwa; cases hwa
      exact h.outside v _ b hv ha z

end Verif.Alias
