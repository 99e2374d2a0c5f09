import Verif.Lemmas.Heap
import Verif.Props.Ins

/-!
# Instructions in memory: C116, C117
-/

namespace Verif.Heap
open Verif Verif.Bind Verif.Rules Verif.PB

/-! ## C116: what changes an instruction -/

/-- **C116**, the claim: what an instruction says changes only by calls on the instruction or on its lists. -/
def InstructionKept : Prop :=
  ∀ (o : Outside) (p : List Stmt) (s : Stmt) (i : Nat), i < (Mem.empty.run o p).inss.length →
    ¬ CallOn (Mem.empty.run o p) i s →
    ((Mem.empty.run o p).exec o s).text o i = (Mem.empty.run o p).text o i

/-- Two instructions with one permission bind rule. -/
def twins : List Stmt :=
  [.perm true [.right 1#16], .ctx (.rule (rawRule b!"ssf" Eq' b!"128")), .pbr (some 0) (some 0),
    .aci [.str b!"a", .pbr (some 0)], .aci [.str b!"b", .pbr (some 0)]]

/-- Some surroundings. -/
def plainOutside : Outside := ⟨plainWorld, true⟩

/-- **C116**: the claim fails: `Shift` of a permission changes what all instructions with this permission say. -/
theorem C116_counterexample : ¬ InstructionKept ∧
    (∀ i, i = 0 ∨ i = 1 →
      ((Mem.empty.run plainOutside twins).exec plainOutside (.shift 0 [.right 2#16])).text plainOutside i ≠
        (Mem.empty.run plainOutside twins).text plainOutside i) := by
  have h0 : ((Mem.empty.run plainOutside twins).exec plainOutside (.shift 0 [.right 2#16])).text plainOutside 0 ≠
      (Mem.empty.run plainOutside twins).text plainOutside 0 := by decide +kernel
  have h1 : ((Mem.empty.run plainOutside twins).exec plainOutside (.shift 0 [.right 2#16])).text plainOutside 1 ≠
      (Mem.empty.run plainOutside twins).text plainOutside 1 := by decide +kernel
  refine ⟨fun h => h0 (h plainOutside twins (.shift 0 [.right 2#16]) 0 (by decide +kernel) ?_), ?_⟩
  · rintro (h | ⟨d, _, h | h⟩) <;> cases h
  · rintro i (rfl | rfl)
    · exact h0
    · exact h1

theorem text_kept (o : Outside) {m : Mem} (hm : Wf m) (s : Stmt) (i : Nat) (hi : i < m.inss.length)
    (h : ∀ c, Writes m s c → ¬ Reads m i c) : (m.exec o s).seeI i = m.seeI i :=
  seeI_same fun c hc => same_exec o m s c (there_reads hm hi hc) fun hw => h c hw hc

theorem ins_grow (o : Outside) {m : Mem} (s : Stmt) (i : Nat) (hi : i < m.inss.length) :
    i < (m.exec o s).inss.length := by
  by_cases hw : Writes m s (.ins i)
  · have key : ∀ (j t p : Nat) (xs : List ISet) (m : Mem), i < m.inss.length →
        i < (m.setI o j t p xs).inss.length := by
      intro j t p xs
      induction xs with
      | nil => exact fun m h => h
      | cons x xs ih =>
        intro m h
        refine ih _ ?_
        cases x with
        | str s => show i < (m.inss.modify _ _).length; rw [List.length_modify]; exact h
        | trs l =>
          cases l with
          | none => exact h
          | some l =>
            simp only [Mem.assert1]
            generalize (m.tlists[l]?).getD [] = es
            induction es generalizing m with
            | nil => exact h
            | cons a es ih2 =>
              rw [List.foldl_cons]
              refine ih2 _ ?_
              by_cases hk : matchTKW (TargetKeyword.string (Held.at_ m.trules a).keyword) ≠ 0
              · rw [if_pos hk]; exact h
              · rw [if_neg hk]; exact h
        | tr a => exact h
        | pbr a => exact h
        | pbrs l =>
          cases l with
          | none => exact h
          | some l =>
            simp only [Mem.assert1]
            generalize (m.plists[l]?).getD [] = es
            induction es generalizing m with
            | nil => exact h
            | cons a es ih2 => exact ih2 _ h
        | other => exact h
    cases s with
    | iset j xs =>
      simp only [Mem.exec]
      cases m.inss[j]? with
      | none => exact hi
      | some c => exact key j c.t c.p xs m hi
    | _ => first | cases hw | exact hw.elim
  · have h : (m.exec o s).inss[i]? = m.inss[i]? := same_exec o m s (.ins i) hi hw
    rw [List.getElem?_eq_getElem hi] at h
    exact (List.getElem?_eq_some_iff.1 h).1

theorem run_kept (o : Outside) (i : Nat) (q : List Stmt) {m : Mem} (hm : Wf m) (hi : i < m.inss.length)
    (h : Avoids o m i q) : (m.run o q).seeI i = m.seeI i := by
  induction q generalizing m with
  | nil => rfl
  | cons s q ih =>
    exact (ih (wf_exec o hm s) (ins_grow o s i hi) h.2).trans (text_kept o hm s i hi h.1)

/-- **C116**: an instruction says the same after any statements that store nothing in what it is made of: itself,
its lists, their rules, and the permissions and bind contexts of these.
Missing: the claim for calls on rules and permissions that the instruction holds. -/
theorem C116_partial (o : Outside) (p q : List Stmt) (i : Nat) (hi : i < (Mem.empty.run o p).inss.length)
    (h : Avoids o (Mem.empty.run o p) i q) :
    ((Mem.empty.run o p).run o q).text o i = (Mem.empty.run o p).text o i := by
  simp only [Mem.text, run_kept o i q (wf_run o p wf_empty) hi h]

example : ∃ q, q ≠ [] ∧ (0 : Nat) < (Mem.empty.run plainOutside twins).inss.length ∧
    Avoids plainOutside (Mem.empty.run plainOutside twins) 0 q :=
  ⟨[.perm false [], .iset 1 [.str b!"c"]], by decide, by decide +kernel, by
    have h0 : (Mem.empty.run plainOutside twins).inss[0]? = some ⟨b!"a", 0, 0⟩ := rfl
    have h1 : (Mem.empty.run plainOutside twins).inss[1]? = some ⟨b!"b", 1, 1⟩ := rfl
    refine ⟨fun c hc => hc.elim, ?_, trivial⟩
    rintro c (rfl | ⟨d, hd, rfl | rfl⟩) hr
    · cases hr
    · cases h1.symm.trans hd
      generalize hc : Cell.tlist _ = c at hr
      cases hr with
      | tlist h => cases h0.symm.trans h; cases hc
      | _ => cases hc
    · cases h1.symm.trans hd
      generalize hc : Cell.plist _ = c at hr
      cases hr with
      | plist h => cases h0.symm.trans h; cases hc
      | _ => cases hc⟩

/-- **C116**: different instructions never have a list in common. -/
theorem C116_apart (o : Outside) (p : List Stmt) (i j : Nat) (c d : ICell) (hij : i ≠ j)
    (hi : (Mem.empty.run o p).inss[i]? = some c) (hj : (Mem.empty.run o p).inss[j]? = some d) :
    c.t ≠ d.t ∧ c.p ≠ d.p :=
  ⟨fun h => hij ((wf_run o p wf_empty).apart i j c d hi hj (.inl h)),
    fun h => hij ((wf_run o p wf_empty).apart i j c d hi hj (.inr h))⟩

/-- **C116**: so a call on an instruction or its lists leaves what every other instruction says, even if it holds the
same rules. -/
theorem C116_other (o : Outside) (p : List Stmt) (s : Stmt) (i j : Nat) (hij : i ≠ j)
    (hj : j < (Mem.empty.run o p).inss.length) (hs : CallOn (Mem.empty.run o p) i s) :
    ((Mem.empty.run o p).exec o s).text o j = (Mem.empty.run o p).text o j := by
  have hm := wf_run o p wf_empty
  generalize Mem.empty.run o p = m at hm hs hj ⊢
  have hap := hm.apart
  have key : ∀ c, Writes m s c → c = .ins i ∨ ∃ d, m.inss[i]? = some d ∧ (c = .tlist d.t ∨ c = .plist d.p) := by
    intro c hc
    rcases hs with h | ⟨d, hd, h | h⟩
    · cases s with
      | iset k xs =>
        rcases h with h | ⟨_, _, h | h⟩
        · cases h; exact hc
        · cases h
        · cases h
      | _ => first | cases h | exact h.elim
    · cases s with
      | iset k xs =>
        rcases h with h | ⟨e, he, h | h⟩
        · cases h
        · injection h with h
          obtain rfl := hap i k d e hd he (.inl h)
          exact hc
        · cases h
      | tpush l xs => cases h; exact Or.inr ⟨d, hd, Or.inl hc⟩
      | tpop l => cases h; exact Or.inr ⟨d, hd, Or.inl hc⟩
      | _ => first | cases h | exact h.elim
    · cases s with
      | iset k xs =>
        rcases h with h | ⟨e, he, h | h⟩
        · cases h
        · cases h
        · injection h with h
          obtain rfl := hap i k d e hd he (.inr h)
          exact hc
      | ppush l xs => cases h; exact Or.inr ⟨d, hd, Or.inr hc⟩
      | ppop l => cases h; exact Or.inr ⟨d, hd, Or.inr hc⟩
      | _ => first | cases h | exact h.elim
  simp only [Mem.text]
  rw [text_kept o hm s j hj]
  intro c hw hr
  rcases key c hw with rfl | ⟨d, hd, rfl | rfl⟩
  · cases hr; exact hij rfl
  · generalize hc : Cell.tlist d.t = c at hr
    cases hr with
    | tlist h => injection hc with hc; exact hij (hap i j _ _ hd h (.inl hc))
    | _ => cases hc
  · generalize hc : Cell.plist d.p = c at hr
    cases hr with
    | plist h => injection hc with hc; exact hij (hap i j _ _ hd h (.inr hc))
    | _ => cases hc

example : ∃ s, CallOn (Mem.empty.run plainOutside twins) 0 s ∧
    (1 : Nat) < (Mem.empty.run plainOutside twins).inss.length ∧
    ((Mem.empty.run plainOutside twins).exec plainOutside s).text plainOutside 0 ≠
      (Mem.empty.run plainOutside twins).text plainOutside 0 :=
  ⟨.ppop 0, Or.inr ⟨_, rfl, Or.inr rfl⟩, by decide +kernel, by decide +kernel⟩

/-! ### Memory and trees -/

theorem stackPush_map {A E A' E' : Type} (f : E → E') (g : A → A') (stop : Bool) (accept : List E → A → Option E)
    (accept' : List E' → A' → Option E') (h : ∀ es x, accept' (es.map f) (g x) = (accept es x).map f)
    (xs : List A) (es : List E) :
    (stackPush stop accept es xs).map f = stackPush stop accept' (es.map f) (xs.map g) := by
  induction xs generalizing es with
  | nil => rfl
  | cons x xs ih =>
    simp only [stackPush, List.map_cons]
    have := h es x
    cases ha : accept es x with
    | none =>
      rw [ha] at this
      simp only [this, Option.map_none]
      cases stop
      · exact ih es
      · rfl
    | some e =>
      rw [ha] at this
      simp only [this, Option.map_some]
      rw [ih, List.map_append]; rfl

theorem stackPush_one {A E : Type} (s s' : Bool) (accept : List E → A → Option E) (es : List E) (x : A) :
    stackPush s accept es [x] = stackPush s' accept es [x] := by
  simp only [stackPush]
  cases accept es x with
  | none => simp
  | some e => rfl

/-- The target rule of an argument. -/
def ofT (h : List TRule) : Option Nat → TRArg
  | some a => .rule (Held.at_ h a)
  | none => .rule badTargetRule

theorem accept_self (es : List TRule) (r s : TRule) (h : acceptTR es (.rule r) = some s) : s = r := by
  simp only [acceptTR] at h
  split at h
  · cases h
  · split at h
    · cases h
    · split at h
      · cases h
      · split at h
        · cases h
        · exact (Option.some.inj h).symm

theorem acceptT_map (h : List TRule) (es : List Nat) (x : Option Nat) :
    acceptTR (es.map (Held.at_ h)) (ofT h x) = (Held.accept h es x).map (Held.at_ h) := by
  cases x with
  | none =>
    simp only [ofT, Held.accept, Option.map_none]
    exact accept_not _ (fun k hk => absurd hk.1 (by decide))
  | some a =>
    simp only [ofT, Held.accept]
    cases ha : acceptTR (es.map (Held.at_ h)) (.rule (Held.at_ h a)) with
    | none => rfl
    | some r => rw [accept_self _ _ _ ha]; rfl

theorem acceptPB_self (w : World) (es : List PBRule) (r s : PBRule)
    (h : PB.accept w (fun _ => none) es (.rule r) = some s) : s = r := by
  simp only [PB.accept, acceptType] at h
  split at h
  · cases h
  · split at h
    · exact (Option.some.inj h).symm
    · cases h

theorem acceptP_map (o : Outside) (m : Mem) (es : List Nat) (x : Option Nat) :
    PB.accept o.w (fun _ => none) (es.map m.seeP) (.rule (x.bind m.seeP)) = (m.acceptP o es x).map m.seeP := by
  cases x with
  | none =>
    simp only [Mem.acceptP, Option.map_none, PB.accept, acceptType, Option.bind_none]
    split <;> rfl
  | some a =>
    simp only [Mem.acceptP, Option.bind_some]
    cases ha : PB.accept o.w (fun _ => none) (es.map m.seeP) (.rule (m.seeP a)) with
    | none => rfl
    | some r => rw [acceptPB_self _ _ _ _ ha]; rfl

theorem seeT_pushT (o : Outside) (m : Mem) (l : Nat) (x : Option Nat) (hl : l < m.tlists.length) :
    (m.pushT o l [x]).seeT l = TRs.push true (m.seeT l) [ofT m.trules x] := by
  simp only [Mem.seeT, Mem.pushT]
  rw [get_modify_eq _ (List.getElem?_eq_getElem hl), List.getElem?_eq_getElem hl]
  simp only [Option.getD_some, TRs.push]
  rw [stackPush_one o.stop true]
  exact stackPush_map _ _ true _ _ (acceptT_map m.trules) [x] _

theorem pushPB_rule (w : World) (rd : Str → Option Store) (es : List PBRule) (r : PBRule) :
    PB.push w rd es [.rule r] = stackPush true (PB.accept w (fun _ => none)) es [.rule r] := rfl

theorem seePs_pushP (o : Outside) (rd : Str → Option Store) (m : Mem) (l : Nat) (x : Option Nat)
    (hl : l < m.plists.length) :
    (m.pushP o l [x]).seePs l = PB.push o.w rd (m.seePs l) [.rule (x.bind m.seeP)] := by
  simp only [Mem.seePs, Mem.pushP, pushPB_rule]
  rw [get_modify_eq _ (List.getElem?_eq_getElem hl), List.getElem?_eq_getElem hl]
  simp only [Option.getD_some, List.foldl_cons, List.foldl_nil]
  rw [stackPush_one o.stop true]
  exact stackPush_map m.seeP (fun x => PArg.rule (x.bind m.seeP)) true _ _ (acceptP_map o m) [x] _

/-- What is not in the lists `t`, `p` and not the instruction `i` is as in `m`. -/
structure Like (m m' : Mem) (t p : Nat) : Prop where
  perms : m'.perms = m.perms
  ctxs : m'.ctxs = m.ctxs
  pbrs : m'.pbrs = m.pbrs
  trules : m'.trules = m.trules
  tlist : ∀ l, l ≠ t → m'.tlists[l]? = m.tlists[l]?
  plist : ∀ l, l ≠ p → m'.plists[l]? = m.plists[l]?

theorem Like.seeP {m m' : Mem} {t p : Nat} (h : Like m m' t p) : m'.seeP = m.seeP := by
  funext a
  simp only [Mem.seeP, h.pbrs, h.perms, h.ctxs]

theorem Like.see {m m' : Mem} {t p : Nat} (h : Like m m' t p) {x : ISet} (hx : ¬ x.Own t p) : x.see m' = x.see m := by
  cases x with
  | str s => rfl
  | trs l =>
    cases l with
    | none => rfl
    | some l =>
      have : l ≠ t := fun e => hx (Or.inl (by rw [e]))
      simp only [ISet.see, Mem.seeT, h.trules, h.tlist l this]
  | tr a => cases a <;> simp only [ISet.see, h.trules]
  | pbr a => cases a <;> simp only [ISet.see, h.seeP]
  | pbrs l =>
    cases l with
    | none => rfl
    | some l =>
      have : l ≠ p := fun e => hx (Or.inr (by rw [e]))
      simp only [ISet.see, Mem.seePs, h.seeP, h.plist l this]
  | other => rfl

theorem Like.refl (m : Mem) (t p : Nat) : Like m m t p := ⟨rfl, rfl, rfl, rfl, fun _ _ => rfl, fun _ _ => rfl⟩

theorem Like.trans {m m' m'' : Mem} {t p : Nat} (h : Like m m' t p) (h' : Like m' m'' t p) : Like m m'' t p :=
  ⟨h'.perms.trans h.perms, h'.ctxs.trans h.ctxs, h'.pbrs.trans h.pbrs, h'.trules.trans h.trules,
    fun l hl => (h'.tlist l hl).trans (h.tlist l hl), fun l hl => (h'.plist l hl).trans (h.plist l hl)⟩

/-- The instruction at `i` holds this, with its lists at `t` and `p`. -/
structure Now (m : Mem) (i t p : Nat) (b : Ins.Body) : Prop where
  cell : m.inss[i]? = some ⟨b.acl, t, p⟩
  tl : t < m.tlists.length
  pl : p < m.plists.length
  ts : m.seeT t = b.trs
  ps : m.seePs p = b.pbrs

theorem now_pushT (o : Outside) {m : Mem} {i t p : Nat} {b : Ins.Body} (h : Now m i t p b) (x : Option Nat) :
    Like m (m.pushT o t [x]) t p ∧
      Now (m.pushT o t [x]) i t p { b with trs := TRs.push true b.trs [ofT m.trules x] } := by
  refine ⟨⟨rfl, rfl, rfl, rfl, fun l hl => get_modify_ne _ _ hl, fun _ _ => rfl⟩, h.cell, ?_, h.pl, ?_, h.ps⟩
  · show t < (m.tlists.modify _ _).length
    rw [List.length_modify]; exact h.tl
  · rw [seeT_pushT o m t x h.tl, h.ts]

theorem now_pushP (o : Outside) (rd : Str → Option Store) {m : Mem} {i t p : Nat} {b : Ins.Body} (h : Now m i t p b)
    (x : Option Nat) :
    Like m (m.pushP o p [x]) t p ∧
      Now (m.pushP o p [x]) i t p { b with pbrs := PB.push o.w rd b.pbrs [.rule (x.bind m.seeP)] } := by
  refine ⟨⟨rfl, rfl, rfl, rfl, fun _ _ => rfl, fun l hl => get_modify_ne _ _ hl⟩, h.cell, h.tl, ?_, h.ts, ?_⟩
  · show p < (m.plists.modify _ _).length
    rw [List.length_modify]; exact h.pl
  · rw [seePs_pushP o rd m p x h.pl, h.ps]

theorem now_trs (o : Outside) {i t p : Nat} (es : List Nat) {m : Mem} {b : Ins.Body} (h : Now m i t p b) :
    Like m (es.foldl (fun m a =>
      if matchTKW (TargetKeyword.string (Held.at_ m.trules a).keyword) ≠ 0 then m.pushT o t [some a] else m) m) t p ∧
    Now (es.foldl (fun m a =>
      if matchTKW (TargetKeyword.string (Held.at_ m.trules a).keyword) ≠ 0 then m.pushT o t [some a] else m) m) i t p
      { b with trs := (es.map (Held.at_ m.trules)).foldl Ins.pushTarget b.trs } := by
  induction es generalizing m b with
  | nil => exact ⟨Like.refl m t p, h⟩
  | cons a es ih =>
    simp only [List.foldl_cons, List.map_cons]
    by_cases hk : matchTKW (TargetKeyword.string (Held.at_ m.trules a).keyword) ≠ 0
    · rw [if_pos hk]
      obtain ⟨h1, h2⟩ := now_pushT o h (some a)
      obtain ⟨h3, h4⟩ := ih h2
      refine ⟨h1.trans h3, ?_⟩
      simp only [h1.trules] at h4
      simpa only [Ins.pushTarget, if_pos hk, ofT] using h4
    · rw [if_neg hk]
      have h4 := ih h
      simpa only [Ins.pushTarget, if_neg hk] using h4

theorem now_pbrs (o : Outside) (rd : Str → Option Store) {i t p : Nat} (es : List Nat) {m : Mem} {b : Ins.Body}
    (h : Now m i t p b) :
    Like m (es.foldl (fun m a => m.pushP o p [some a]) m) t p ∧
    Now (es.foldl (fun m a => m.pushP o p [some a]) m) i t p
      { b with pbrs := (es.map m.seeP).foldl (fun es x => PB.push o.w rd es [.rule x]) b.pbrs } := by
  induction es generalizing m b with
  | nil => exact ⟨Like.refl m t p, h⟩
  | cons a es ih =>
    obtain ⟨h1, h2⟩ := now_pushP o rd h (some a)
    obtain ⟨h3, h4⟩ := ih h2
    refine ⟨h1.trans h3, ?_⟩
    rw [h1.seeP] at h4
    exact h4

theorem now_assert1 (o : Outside) (rd : Str → Option Store) {m : Mem} {i t p : Nat} {b : Ins.Body} (h : Now m i t p b)
    (x : ISet) :
    Like m (m.assert1 o i t p x) t p ∧ Now (m.assert1 o i t p x) i t p (Ins.assert1 o.w rd b (x.see m)) := by
  cases x with
  | str s =>
    refine ⟨⟨rfl, rfl, rfl, rfl, fun _ _ => rfl, fun _ _ => rfl⟩, ?_, h.tl, h.pl, ?_, ?_⟩
    · show (m.inss.modify _ _)[i]? = _
      rw [get_modify_eq _ h.cell]
      simp only [ISet.see, Ins.assert1, Ins.setLabel]
      split <;> rfl
    · simp only [ISet.see, Ins.assert1, Ins.setLabel]
      split <;> exact h.ts
    · simp only [ISet.see, Ins.assert1, Ins.setLabel]
      split <;> exact h.ps
  | trs l =>
    cases l with
    | none => exact ⟨Like.refl m t p, h⟩
    | some l => exact now_trs o _ h
  | tr a => cases a <;> exact now_pushT o h _
  | pbr a => cases a <;> exact now_pushP o rd h _
  | pbrs l =>
    cases l with
    | none => exact ⟨Like.refl m t p, h⟩
    | some l => exact now_pbrs o rd _ h
  | other => exact ⟨Like.refl m t p, h⟩

theorem now_setI (o : Outside) (rd : Str → Option Store) {i t p : Nat} (xs : List ISet) {m : Mem} {b : Ins.Body}
    (h : Now m i t p b) (hx : ∀ x ∈ xs, ¬ x.Own t p) :
    Now (m.setI o i t p xs) i t p (Ins.setBody o.w rd b (xs.map (ISet.see m))) := by
  induction xs generalizing m b with
  | nil => exact h
  | cons x xs ih =>
    obtain ⟨h1, h2⟩ := now_assert1 o rd h x
    have h3 := ih h2 fun y hy => hx y (List.mem_cons_of_mem _ hy)
    have h4 : xs.map (ISet.see (m.assert1 o i t p x)) = xs.map (ISet.see m) :=
      List.map_congr_left fun y hy => h1.see (hx y (List.mem_cons_of_mem _ hy))
    rw [h4] at h3
    exact h3

theorem Now.see {m : Mem} {i t p : Nat} {b : Ins.Body} (h : Now m i t p b) : m.seeI i = some b := by
  simp only [Mem.seeI, h.cell, Option.map_some, h.ts, h.ps]

/-- **C116**: `Set` of an instruction in memory is `Set` of what the instruction shows, so long as it is not given its
own lists. -/
theorem C116_set (o : Outside) (rd : Str → Option Store) (p : List Stmt) (i : Nat) (c : ICell) (xs : List ISet)
    (hi : (Mem.empty.run o p).inss[i]? = some c) (hx : ∀ x ∈ xs, ¬ x.Own c.t c.p) :
    ((Mem.empty.run o p).exec o (.iset i xs)).seeI i =
      Ins.set o.w rd ((Mem.empty.run o p).seeI i) (xs.map (ISet.see (Mem.empty.run o p))) := by
  have hm := wf_run o p wf_empty
  generalize Mem.empty.run o p = m at hm hi ⊢
  have hl := hm.ins c (List.mem_of_getElem? hi)
  have hn : Now m i c.t c.p ⟨c.acl, m.seeT c.t, m.seePs c.p⟩ := ⟨hi, hl.1, hl.2, rfl, rfl⟩
  simp only [Mem.exec, hi]
  rw [(now_setI o rd xs hn hx).see, hn.see]
  rfl

example : ∃ c xs, (Mem.empty.run plainOutside twins).inss[0]? = some c ∧ xs ≠ [] ∧ ∀ x ∈ xs, ¬ ISet.Own c.t c.p x :=
  ⟨_, [.pbrs (some 1), .str b!"c"], rfl, by decide, by
    intro x hx
    simp only [List.mem_cons, List.not_mem_nil, or_false] at hx
    rintro (rfl | rfl) <;> rcases hx with h | h <;> cases h⟩

/-- **C116**: `ACI` makes an instruction that shows what its arguments showed. -/
theorem C116_new (o : Outside) (rd : Str → Option Store) (p : List Stmt) (xs : List ISet)
    (hx : ∀ l, (.trs (some l) ∈ xs → l < (Mem.empty.run o p).tlists.length) ∧
      (.pbrs (some l) ∈ xs → l < (Mem.empty.run o p).plists.length)) :
    ((Mem.empty.run o p).exec o (.aci xs)).seeI (Mem.empty.run o p).inss.length =
      Ins.ACI o.w rd (xs.map (ISet.see (Mem.empty.run o p))) := by
  generalize Mem.empty.run o p = m at hx ⊢
  let m0 : Mem := { m with
      inss := m.inss ++ [⟨[], m.tlists.length, m.plists.length⟩]
      tlists := m.tlists ++ [[]]
      plists := m.plists ++ [[]] }
  have hn : Now m0 m.inss.length m.tlists.length m.plists.length Ins.newACI := by
    refine ⟨?_, ?_, ?_, ?_, ?_⟩
    · show (m.inss ++ _)[m.inss.length]? = _
      rw [List.getElem?_append_right (Nat.le_refl _), Nat.sub_self]; rfl
    · show _ < (m.tlists ++ _).length
      simp
    · show _ < (m.plists ++ _).length
      simp
    · simp [Mem.seeT, m0, Ins.newACI]
    · simp [Mem.seePs, m0, Ins.newACI]
  have hno : ∀ x ∈ xs, ¬ x.Own m.tlists.length m.plists.length := by
    rintro x hxs (rfl | rfl)
    · exact Nat.lt_irrefl _ ((hx _).1 hxs)
    · exact Nat.lt_irrefl _ ((hx _).2 hxs)
  have hs : xs.map (ISet.see m0) = xs.map (ISet.see m) := by
    refine List.map_congr_left fun x hxs => ?_
    cases x with
    | trs l =>
      cases l with
      | none => rfl
      | some l => simp only [ISet.see, Mem.seeT, m0, get_append ((hx l).1 hxs)]
    | pbrs l =>
      cases l with
      | none => rfl
      | some l => simp only [ISet.see, Mem.seePs, m0, get_append ((hx l).2 hxs)]; rfl
    | tr a => cases a <;> rfl
    | pbr a => cases a <;> rfl
    | _ => rfl
  have h := (now_setI o rd xs hn hno).see
  rw [hs] at h
  show (m0.setI o _ _ _ xs).seeI _ = _
  rw [h]
  simp only [Ins.ACI, List.length_map]
  split
  · rfl
  · next h0 =>
    have : xs = [] := by
      cases xs with
      | nil => rfl
      | cons x xs => exact absurd (Nat.succ_pos _) h0
    subst this; rfl

example : ∃ xs : List ISet, xs ≠ [] ∧
    ∀ l, (.trs (some l) ∈ xs → l < (Mem.empty.run plainOutside twins).tlists.length) ∧
      (.pbrs (some l) ∈ xs → l < (Mem.empty.run plainOutside twins).plists.length) :=
  ⟨[.pbrs (some 1), .str b!"c"], by decide, by
    intro l
    simp only [List.mem_cons, List.not_mem_nil, or_false]
    constructor
    · rintro (h | h) <;> cases h
    · rintro (h | h)
      · cases h; decide +kernel
      · cases h⟩

/-! ## C117: lists of permission bind rules -/

/-- **C117**, the claim: no two rules of a list have the same text. -/
def RulesDiffer : Prop :=
  ∀ (o : Outside) (p : List Stmt) (l : Nat) (es : List Nat), (Mem.empty.run o p).plists[l]? = some es →
    ∀ (i j a b : Nat), i < j → es[i]? = some a → es[j]? = some b →
      sameText o.w ((Mem.empty.run o p).seeP a) ((Mem.empty.run o p).seeP b) = false

/-- A list of two rules which become the same. -/
def merging : List Stmt :=
  [.perm true [.right 1#16], .perm true [.right 1#16, .right 2#16], .ctx (.rule (rawRule b!"ssf" Eq' b!"128")),
    .pbr (some 0) (some 0), .pbr (some 1) (some 0), .plist [some 0, some 1], .unshift 1 [.right 2#16]]

/-- **C117**: the claim fails: `Unshift` of a permission that is held makes two rules of a list the same. -/
theorem C117_counterexample : ¬ RulesDiffer := by
  intro h
  have := h plainOutside merging 0 [0, 1] (by decide +kernel) 0 1 0 1 (by decide) rfl rfl
  exact absurd this (by decide +kernel)

/-- **C117**: every rule of every list has a permission and a bind context, whatever was done to the rule since. -/
theorem C117_complete (o : Outside) (p : List Stmt) (l : Nat) (es : List Nat)
    (hl : (Mem.empty.run o p).plists[l]? = some es) (a : Nat) (ha : a ∈ es) :
    Complete ((Mem.empty.run o p).seeP a) := by
  have hm := wf_run o p wf_empty
  obtain ⟨q, b, h⟩ := hm.plist es (List.mem_of_getElem? hl) a ha
  have hq := hm.p _ (List.mem_of_getElem? h) q rfl
  have hb := hm.b _ (List.mem_of_getElem? h) b rfl
  refine ⟨(Mem.empty.run o p).perms[q], (Mem.empty.run o p).ctxs[b], ?_⟩
  simp only [Mem.seeP, h, Option.map_some, Option.bind_some, List.getElem?_eq_getElem hq,
    List.getElem?_eq_getElem hb]

/-- The rules of every list differ. -/
def Differ (o : Outside) (m : Mem) : Prop :=
  ∀ es ∈ m.plists, es.Pairwise fun a b => sameText o.w (m.seeP a) (m.seeP b) = false

theorem acceptP_new {o : Outside} {m : Mem} {es : List Nat} {x : Option Nat} {e : Nat}
    (h : m.acceptP o es x = some e) : ∀ a ∈ es, sameText o.w (m.seeP a) (m.seeP e) = false := by
  have hc := (acceptP_parts h).2.2
  simp only [PB.accept] at hc
  split at hc
  · cases hc
  · next hn =>
    intro a ha
    simp only [contains, candidate, List.any_map, List.any_eq_true, not_exists, not_and, Function.comp] at hn
    simpa only [sameText, Bool.not_eq_true] using hn a ha

theorem differ_push {o : Outside} {m : Mem} {es : List Nat} {x : Option Nat} {e : Nat}
    (hp : es.Pairwise fun a b => sameText o.w (m.seeP a) (m.seeP b) = false) (h : m.acceptP o es x = some e) :
    (es ++ [e]).Pairwise fun a b => sameText o.w (m.seeP a) (m.seeP b) = false := by
  rw [List.pairwise_append]
  refine ⟨hp, List.pairwise_singleton _ _, ?_⟩
  intro a ha b hb
  simp only [List.mem_singleton] at hb
  subst hb
  exact acceptP_new h a ha

theorem differ_pushP (o : Outside) {m : Mem} (hm : Differ o m) (l : Nat) (xs : List (Option Nat)) :
    Differ o (m.pushP o l xs) := by
  intro es hes
  rcases mem_modify hes with h | ⟨es', h1, rfl⟩
  · exact hm es h
  · exact pushes_inv (P := fun es => es.Pairwise fun a b => sameText o.w (m.seeP a) (m.seeP b) = false)
      (fun es x e hp hacc => differ_push hp hacc) xs (hm es' (List.mem_of_getElem? h1))

theorem differ_foldl {β : Type} {o : Outside} (f : Mem → β → Mem) (h : ∀ m b, Differ o m → Differ o (f m b))
    (xs : List β) {m : Mem} (hm : Differ o m) : Differ o (xs.foldl f m) := by
  induction xs generalizing m with
  | nil => exact hm
  | cons x xs ih => exact ih (h m x hm)

theorem differ_setI (o : Outside) (i t p : Nat) {m : Mem} (hm : Differ o m) (xs : List ISet) :
    Differ o (m.setI o i t p xs) := by
  refine differ_foldl _ ?_ xs hm
  intro m x hm
  cases x with
  | str s => exact hm
  | trs l =>
    cases l with
    | none => exact hm
    | some l =>
      simp only [Mem.assert1]
      refine differ_foldl _ ?_ _ hm
      intro m a hm
      by_cases hk : matchTKW (TargetKeyword.string (Held.at_ m.trules a).keyword) ≠ 0
      · rw [if_pos hk]; exact hm
      · rw [if_neg hk]; exact hm
  | tr a => exact hm
  | pbr a => exact differ_pushP o hm _ _
  | pbrs l =>
    cases l with
    | none => exact hm
    | some l =>
      simp only [Mem.assert1]
      exact differ_foldl _ (fun m a hm => differ_pushP o hm _ _) _ hm
  | other => exact hm

theorem differ_same {o : Outside} {m m' : Mem} (hd : Differ o m) (hl : m'.plists = m.plists)
    (h : ∀ es ∈ m.plists, ∀ a ∈ es, m'.seeP a = m.seeP a) : Differ o m' := by
  intro es hes
  rw [hl] at hes
  refine List.Pairwise.imp_of_mem ?_ (hd es hes)
  intro a b ha hb hab
  rw [h es hes a ha, h es hes b hb]; exact hab

theorem differ_exec (o : Outside) {m : Mem} (hm : Wf m) (hd : Differ o m) (s : Stmt) (hs : Quiet m s) :
    Differ o (m.exec o s) := by
  have hsee : ∀ es ∈ m.plists, ∀ a ∈ es, (m.exec o s).seeP a = m.seeP a := by
    intro es hes a ha
    obtain ⟨q, b, h⟩ := hm.plist es hes a ha
    exact seeP_same fun c hc => same_exec o m s c
      (there_readsP hm (List.getElem?_eq_some_iff.1 h).1 hc) fun hw => hs es hes a ha c hw hc
  cases s with
  | plist xs =>
    intro es hes
    rcases List.mem_append.1 hes with hes | hes
    · exact hd es hes
    · simp only [List.mem_singleton] at hes
      subst hes
      exact stackPush_inv (P := fun es => es.Pairwise fun a b => sameText o.w (m.seeP a) (m.seeP b) = false)
        (fun es x e hp hacc => differ_push hp hacc) xs List.Pairwise.nil
  | ppush l xs => exact differ_pushP o hd l xs
  | ppop l =>
    intro es hes
    rcases mem_modify hes with h | ⟨es', h1, rfl⟩
    · exact hd es h
    · exact (hd es' (List.mem_of_getElem? h1)).sublist (List.dropLast_sublist _)
  | aci xs =>
    refine differ_setI o _ _ _ ?_ xs
    intro es hes
    rcases List.mem_append.1 hes with hes | hes
    · exact hd es hes
    · simp only [List.mem_singleton] at hes; subst hes; exact List.Pairwise.nil
  | iset i xs =>
    simp only [Mem.exec]
    cases m.inss[i]? with
    | none => exact hd
    | some c => exact differ_setI o i c.t c.p hd xs
  | pbr p b =>
    refine differ_same hd ?_ hsee
    simp only [Mem.exec]; split <;> rfl
  | pbrSet a xs =>
    refine differ_same hd ?_ hsee
    simp only [Mem.exec]; split <;> rfl
  | _ => exact differ_same hd rfl hsee

theorem differ_run (o : Outside) (p : List Stmt) {m : Mem} (hm : Wf m) (hd : Differ o m) (hp : QuietRun o m p) :
    Differ o (m.run o p) := by
  induction p generalizing m with
  | nil => exact hd
  | cons s p ih => exact ih (wf_exec o hm s) (differ_exec o hm hd s hp.1) hp.2

/-- **C117**: the claim holds for programs that change no rule, permission or bind context that is held by a list.
Missing: other programs. -/
theorem C117_partial (o : Outside) (p : List Stmt) (hp : QuietRun o Mem.empty p) (l : Nat) (es : List Nat)
    (hl : (Mem.empty.run o p).plists[l]? = some es) (i j a b : Nat) (hij : i < j) (ha : es[i]? = some a)
    (hb : es[j]? = some b) : sameText o.w ((Mem.empty.run o p).seeP a) ((Mem.empty.run o p).seeP b) = false := by
  have hd : Differ o (Mem.empty.run o p) := differ_run o p wf_empty (by intro es h; cases h) hp
  have h := List.pairwise_iff_getElem.1 (hd es (List.mem_of_getElem? hl))
  obtain ⟨hi, rfl⟩ := List.getElem?_eq_some_iff.1 ha
  obtain ⟨hj, rfl⟩ := List.getElem?_eq_some_iff.1 hb
  exact h i j hi hj hij

/-- No list holds a rule twice. -/
def Once (m : Mem) : Prop := ∀ es ∈ m.plists, es.Nodup

theorem once_push {o : Outside} {E : EqualFold} (hE : o.w.env.eq = E.eq) {m : Mem} {es : List Nat} {x : Option Nat}
    {e : Nat} (hp : es.Nodup) (h : m.acceptP o es x = some e) : (es ++ [e]).Nodup := by
  rw [List.nodup_append]
  refine ⟨hp, by simp, ?_⟩
  intro a ha b hb hab
  simp only [List.mem_singleton] at hb
  subst hb
  subst hab
  have := acceptP_new h a ha
  rw [sameText, hE, E.refl] at this
  cases this

theorem once_pushP (o : Outside) {E : EqualFold} (hE : o.w.env.eq = E.eq) {m : Mem} (hm : Once m) (l : Nat)
    (xs : List (Option Nat)) : Once (m.pushP o l xs) := by
  intro es hes
  rcases mem_modify hes with h | ⟨es', h1, rfl⟩
  · exact hm es h
  · exact pushes_inv (P := List.Nodup) (fun es x e hp hacc => once_push hE hp hacc) xs
      (hm es' (List.mem_of_getElem? h1))

theorem once_foldl {β : Type} (f : Mem → β → Mem) (h : ∀ m b, Once m → Once (f m b))
    (xs : List β) {m : Mem} (hm : Once m) : Once (xs.foldl f m) := by
  induction xs generalizing m with
  | nil => exact hm
  | cons x xs ih => exact ih (h m x hm)

theorem once_setI (o : Outside) {E : EqualFold} (hE : o.w.env.eq = E.eq) (i t p : Nat) {m : Mem} (hm : Once m)
    (xs : List ISet) : Once (m.setI o i t p xs) := by
  refine once_foldl _ ?_ xs hm
  intro m x hm
  cases x with
  | str s => exact hm
  | trs l =>
    cases l with
    | none => exact hm
    | some l =>
      simp only [Mem.assert1]
      refine once_foldl _ ?_ _ hm
      intro m a hm
      by_cases hk : matchTKW (TargetKeyword.string (Held.at_ m.trules a).keyword) ≠ 0
      · rw [if_pos hk]; exact hm
      · rw [if_neg hk]; exact hm
  | tr a => exact hm
  | pbr a => exact once_pushP o hE hm _ _
  | pbrs l =>
    cases l with
    | none => exact hm
    | some l =>
      simp only [Mem.assert1]
      exact once_foldl _ (fun m a hm => once_pushP o hE hm _ _) _ hm
  | other => exact hm

theorem once_exec (o : Outside) {E : EqualFold} (hE : o.w.env.eq = E.eq) {m : Mem} (hd : Once m) (s : Stmt) :
    Once (m.exec o s) := by
  cases s with
  | plist xs =>
    intro es hes
    rcases List.mem_append.1 hes with hes | hes
    · exact hd es hes
    · simp only [List.mem_singleton] at hes
      subst hes
      exact stackPush_inv (P := List.Nodup) (fun es x e hp hacc => once_push hE hp hacc) xs List.nodup_nil
  | ppush l xs => exact once_pushP o hE hd l xs
  | ppop l =>
    intro es hes
    rcases mem_modify hes with h | ⟨es', h1, rfl⟩
    · exact hd es h
    · exact (hd es' (List.mem_of_getElem? h1)).sublist (List.dropLast_sublist _)
  | aci xs =>
    refine once_setI o hE _ _ _ ?_ xs
    intro es hes
    rcases List.mem_append.1 hes with hes | hes
    · exact hd es hes
    · simp only [List.mem_singleton] at hes; subst hes; exact List.nodup_nil
  | iset i xs =>
    simp only [Mem.exec]
    cases m.inss[i]? with
    | none => exact hd
    | some c => exact once_setI o hE i c.t c.p hd xs
  | pbr p b => simp only [Mem.exec]; split <;> exact hd
  | pbrSet a xs => simp only [Mem.exec]; split <;> exact hd
  | _ => exact hd

/-- **C117**: no program makes a list hold the same storage twice. -/
theorem C117_once (o : Outside) (E : EqualFold) (hE : o.w.env.eq = E.eq) (p : List Stmt) (l : Nat) (es : List Nat)
    (hl : (Mem.empty.run o p).plists[l]? = some es) (i j a : Nat) (hi : es[i]? = some a) (hj : es[j]? = some a) :
    i = j := by
  have hd : Once (Mem.empty.run o p) :=
    once_foldl _ (fun m s hm => once_exec o hE hm s) p (by intro es h; cases h)
  have h := hd es (List.mem_of_getElem? hl)
  obtain ⟨hi', rfl⟩ := List.getElem?_eq_some_iff.1 hi
  obtain ⟨hj', h'⟩ := List.getElem?_eq_some_iff.1 hj
  exact ((List.getElem_inj h).1 h').symm

theorem acceptP_iff (o : Outside) (m : Mem) (es : List Nat) (a : Nat) :
    m.acceptP o es (some a) = some a ↔
      Complete (m.seeP a) ∧ ∀ e ∈ es, sameText o.w (m.seeP e) (m.seeP a) = false := by
  constructor
  · intro h
    refine ⟨?_, acceptP_new h⟩
    have hc := (acceptP_parts h).2.2
    simp only [PB.accept, acceptType] at hc
    split at hc
    · cases hc
    · split at hc
      · next hv => exact (valid_iff _).1 hv
      · cases hc
  · rintro ⟨hv, hn⟩
    have hv' := (valid_iff _).2 hv
    have hc : contains o.w (fun _ => none) (es.map m.seeP) (.rule (m.seeP a)) = false := by
      simp only [contains, candidate, List.any_map, List.any_eq_false, Function.comp, Bool.not_eq_true]
      exact hn
    have : PB.accept o.w (fun _ => none) (es.map m.seeP) (.rule (m.seeP a)) = some (m.seeP a) := by
      simp only [PB.accept, acceptType, hc, hv', Bool.false_eq_true, if_false, if_true]
    simp only [Mem.acceptP, this, Option.isSome_some, if_true]

/-- **C117**: `Push` takes a rule if and only if the rule has both parts and no rule of the list has its text, as the
rules are at the time of the call. -/
theorem C117_push (o : Outside) (p : List Stmt) (l : Nat) (es : List Nat) (a : Nat)
    (hl : (Mem.empty.run o p).plists[l]? = some es) :
    ((Complete ((Mem.empty.run o p).seeP a) ∧
        ∀ e ∈ es, sameText o.w ((Mem.empty.run o p).seeP e) ((Mem.empty.run o p).seeP a) = false) →
      ((Mem.empty.run o p).exec o (.ppush l [some a])).plists[l]? = some (es ++ [a])) ∧
    (¬ (Complete ((Mem.empty.run o p).seeP a) ∧
        ∀ e ∈ es, sameText o.w ((Mem.empty.run o p).seeP e) ((Mem.empty.run o p).seeP a) = false) →
      ((Mem.empty.run o p).exec o (.ppush l [some a])).plists[l]? = some es) := by
  generalize Mem.empty.run o p = m at hl ⊢
  rw [← acceptP_iff]
  simp only [Mem.exec, Mem.pushP]
  rw [get_modify_eq _ hl]
  simp only [List.foldl_cons, List.foldl_nil, stackPush]
  constructor
  · intro h; rw [h]
  · intro h
    cases ha : m.acceptP o es (some a) with
    | none => simp
    | some e =>
      have := (acceptP_parts ha).1
      cases this
      exact absurd ha h

/-- What `set` leaves, seen from the program. -/
theorem see_setP (rd : Str → Option Store) (m : Mem) (xs : List PSet) (c : PCell) :
    (⟨(m.setP c xs).p.bind fun q => m.perms[q]?, (m.setP c xs).b.bind fun b => m.ctxs[b]?⟩ : Store) =
      setAll rd ⟨c.p.bind fun q => m.perms[q]?, c.b.bind fun b => m.ctxs[b]?⟩ (xs.map (PSet.see m)) := by
  induction xs generalizing c with
  | nil => rfl
  | cons x xs ih =>
    cases x with
    | perm a =>
      cases a with
      | none => rfl
      | some q =>
        simp only [Mem.setP, List.map_cons, PSet.see, setAll, Option.bind_some, Rights.valid, Rights.isZero]
        cases hq : m.perms[q]? with
        | none => simp
        | some v =>
          simp only [Option.isSome_some, if_true, Option.isNone_some, Bool.not_false]
          rw [ih]
          simp only [Option.bind_some, hq]
    | ctx b =>
      simp only [Mem.setP, List.map_cons, PSet.see, setAll]
      cases hb : m.ctxs[b]? with
      | none => simp [ctxValid]
      | some t =>
        simp only [Option.getD_some]
        by_cases hv : ctxValid t = true
        · rw [if_pos hv, if_pos hv, ih]
          simp only [Option.bind_some, hb]
        · rw [if_neg hv, if_neg hv]
    | other => exact ih c

/-- **C117**: `Set` changes a rule that has a part where it is, so that all lists show what was set; a rule without
parts stays as it is, and a new one has what was set. -/
theorem C117_set (o : Outside) (rd : Str → Option Store) (p : List Stmt) (a : Nat) (xs : List PSet) (s : Store)
    (ha : (Mem.empty.run o p).seeP a = some s) :
    ((s.p ≠ none ∨ s.b ≠ none) →
      ((Mem.empty.run o p).exec o (.pbrSet a xs)).seeP a =
        PB.set rd (some s) (xs.map (PSet.see (Mem.empty.run o p))) ∧
      ((Mem.empty.run o p).exec o (.pbrSet a xs)).pbrs.length = (Mem.empty.run o p).pbrs.length) ∧
    (s = ⟨none, none⟩ →
      ((Mem.empty.run o p).exec o (.pbrSet a xs)).seeP a = some s ∧
      ((Mem.empty.run o p).exec o (.pbrSet a xs)).seeP (Mem.empty.run o p).pbrs.length =
        PB.set rd none (xs.map (PSet.see (Mem.empty.run o p)))) := by
  generalize Mem.empty.run o p = m at ha ⊢
  obtain ⟨c, hc, rfl⟩ : ∃ c, m.pbrs[a]? = some c ∧
      (⟨c.p.bind fun q => m.perms[q]?, c.b.bind fun b => m.ctxs[b]?⟩ : Store) = s := by
    simpa only [Mem.seeP, Option.map_eq_some_iff] using ha
  constructor
  · intro h
    have hz : PB.isZero (some (⟨c.p.bind fun q => m.perms[q]?, c.b.bind fun b => m.ctxs[b]?⟩ : Store)) = false := by
      simp only [PB.isZero, Rights.isZero]
      rcases h with h | h
      · cases e : (c.p.bind fun q => m.perms[q]?) with
        | none => exact absurd e h
        | some v => rfl
      · cases e : (c.b.bind fun b => m.ctxs[b]?) with
        | none => exact absurd e h
        | some v => simp
    have he : m.exec o (.pbrSet a xs) = { m with pbrs := m.pbrs.modify a fun c => m.setP c xs } := by
      simp only [Mem.exec, ha, hz, Bool.false_eq_true, if_false]
    rw [he]
    refine ⟨?_, List.length_modify _ _ _⟩
    show ((m.pbrs.modify a _)[a]?).map _ = _
    rw [get_modify_eq _ hc, Option.map_some]
    simp only [PB.set, storage, hz, Bool.false_eq_true, if_false, see_setP rd]
  · intro h
    have hz : PB.isZero (m.seeP a) = true := by rw [ha, h]; rfl
    have he : m.exec o (.pbrSet a xs) = { m with pbrs := m.pbrs ++ [m.setP ⟨none, none⟩ xs] } := by
      simp only [Mem.exec, hz, if_true]
    rw [he]
    constructor
    · show ((m.pbrs ++ _)[a]?).map _ = _
      rw [get_append (List.getElem?_eq_some_iff.1 hc).1, hc]
      rfl
    · show ((m.pbrs ++ _)[m.pbrs.length]?).map _ = _
      rw [List.getElem?_append_right (Nat.le_refl _), Nat.sub_self]
      exact congrArg some (see_setP rd m xs ⟨none, none⟩)

example : ∃ s, (Mem.empty.run plainOutside merging).seeP 0 = some s ∧ (s.p ≠ none ∨ s.b ≠ none) :=
  ⟨_, rfl, .inl (by decide +kernel)⟩

/-- A list of two rules which stay different. -/
def lasting : List Stmt :=
  [.perm true [.right 1#16], .perm true [.right 2#16], .perm false [.right 1#16],
    .ctx (.rule (rawRule b!"ssf" Eq' b!"128")), .pbr (some 0) (some 0), .pbr (some 1) (some 0),
    .plist [some 0], .ppush 0 [some 1, some 0], .shift 2 [.right 2#16]]

example : QuietRun plainOutside Mem.empty lasting ∧
    (Mem.empty.run plainOutside lasting).plists[0]? = some [0, 1] := by
  refine ⟨⟨?_, ?_, ?_, ?_, ?_, ?_, ?_, ?_, ?_, trivial⟩, by decide +kernel⟩
  rotate_right 2
  · rintro es hes a ha c rfl h; cases h
  · intro es hes a ha c hw hr
    obtain rfl : c = .perm 2 := hw
    obtain ⟨d, hd, hp⟩ := hr
    have hl : (Mem.empty.run plainOutside (lasting.take 8)).plists = [[0, 1]] := by decide +kernel
    have he : es ∈ (Mem.empty.run plainOutside (lasting.take 8)).plists := hes
    rw [hl] at he
    simp only [List.mem_singleton] at he
    subst he
    simp only [List.mem_cons, List.not_mem_nil, or_false] at ha
    rcases ha with rfl | rfl
    · have : some d = some ⟨some 0, some 0⟩ := hd.symm
      cases this; cases hp
    · have : some d = some ⟨some 1, some 0⟩ := hd.symm
      cases this; cases hp
  all_goals intro es hes a ha c hw; exact hw.elim

end Verif.Heap
