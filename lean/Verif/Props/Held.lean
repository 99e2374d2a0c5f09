import Verif.Model.Held
import Verif.Spec.Held
import Verif.Props.Target
import Verif.Props.Piece

/-!
# Rules that are changed after they were pushed: C115
-/

namespace Verif.Held
open Verif Verif.Rules Verif.Spec

theorem has_at (m : Mem) (x : Nat) (k : TKw) : Is m x k ↔ Has (at_ m.rules x) k := by
  simp only [Is, at_]
  cases m.rules[x]? with
  | none =>
    constructor
    · rintro ⟨r, h, _⟩; cases h
    · rintro ⟨h, _⟩; exact absurd h (by decide)
  | some r =>
    constructor
    · rintro ⟨r', h, hk⟩; cases h; exact hk
    · intro h; exact ⟨r, rfl, h⟩

theorem keeps_iff (m : Mem) (a : Nat) :
    Keeps m a ↔ ∀ es, m.lists[a]? = some es → Sound (es.map (at_ m.rules)) := by
  constructor
  · intro h es hes
    refine ⟨?_, ?_, ?_⟩
    · rw [List.length_map]
      by_cases h9 : es.length ≤ 9
      · exact h9
      · have hi : (9 : Nat) < es.length := by omega
        exact absurd (h.short 9 es[9] ⟨es, hes, List.getElem?_eq_getElem hi⟩) (by omega)
    · intro r hr
      obtain ⟨x, hx, rfl⟩ := List.mem_map.1 hr
      obtain ⟨i, hi⟩ := List.getElem?_of_mem hx
      obtain ⟨k, hk⟩ := h.known i x ⟨es, hes, hi⟩
      exact ⟨k, (has_at m x k).1 hk⟩
    · intro i j r s k hij hr hs hk hk'
      rw [List.getElem?_map, Option.map_eq_some_iff] at hr hs
      obtain ⟨x, hx, rfl⟩ := hr
      obtain ⟨y, hy, rfl⟩ := hs
      exact h.distinct i j x y k hij ⟨es, hes, hx⟩ ⟨es, hes, hy⟩ ((has_at m x k).2 hk) ((has_at m y k).2 hk')
  · intro h
    refine ⟨?_, ?_, ?_⟩
    · rintro i x ⟨es, hes, hx⟩
      have := (h es hes).length
      rw [List.length_map] at this
      have := (List.getElem?_eq_some_iff.1 hx).1
      omega
    · rintro i x ⟨es, hes, hx⟩
      obtain ⟨k, hk⟩ := (h es hes).known (at_ m.rules x) (List.mem_map_of_mem (List.mem_of_getElem? hx))
      exact ⟨k, (has_at m x k).2 hk⟩
    · rintro i j x y k hij ⟨es, hes, hx⟩ ⟨es', hes', hy⟩ hk hk'
      rw [hes] at hes'; cases hes'
      exact (h es hes).distinct i j _ _ k hij (by rw [List.getElem?_map, hx]; rfl)
        (by rw [List.getElem?_map, hy]; rfl) ((has_at m x k).1 hk) ((has_at m y k).1 hk')

theorem keeps_same {m m' : Mem} {a : Nat} (h : Keeps m a) (h1 : m'.rules = m.rules)
    (h2 : m'.lists = m.lists) : Keeps m' a := by
  rw [keeps_iff] at h ⊢
  rw [h1, h2]; exact h

theorem sound_congr {es : List Nat} {f g : Nat → TRule} (h : ∀ x ∈ es, ∀ k, Has (f x) k ↔ Has (g x) k)
    (hs : Sound (es.map f)) : Sound (es.map g) := by
  refine ⟨by have := hs.length; simpa using this, ?_, ?_⟩
  · intro r hr
    obtain ⟨x, hx, rfl⟩ := List.mem_map.1 hr
    obtain ⟨k, hk⟩ := hs.known (f x) (List.mem_map_of_mem hx)
    exact ⟨k, (h x hx k).1 hk⟩
  · intro i j r s k hij hr hs' hk hk'
    rw [List.getElem?_map, Option.map_eq_some_iff] at hr hs'
    obtain ⟨x, hx, rfl⟩ := hr
    obtain ⟨y, hy, rfl⟩ := hs'
    exact hs.distinct i j (f x) (f y) k hij (by rw [List.getElem?_map, hx]; rfl)
      (by rw [List.getElem?_map, hy]; rfl) ((h x (List.mem_of_getElem? hx) k).2 hk)
      ((h y (List.mem_of_getElem? hy) k).2 hk')

theorem acceptTR_same {es : List TRule} {r : TRule} (h : (acceptTR es (.rule r)).isSome = true) :
    acceptTR es (.rule r) = some r := by
  revert h
  simp only [acceptTR]
  repeat' split
  all_goals first | (intro h; cases h; done) | (intro _; rfl)

theorem sound_push {h : List TRule} {stop : Bool} (xs : List (Option Nat)) {es : List Nat}
    (hs : Sound (es.map (at_ h))) : Sound ((stackPush stop (accept h) es xs).map (at_ h)) := by
  refine stackPush_inv (P := fun es => Sound (es.map (at_ h))) ?_ xs hs
  intro es x e hp ha
  cases x with
  | none => cases ha
  | some x =>
    simp only [accept] at ha
    by_cases hc : (acceptTR (es.map (at_ h)) (.rule (at_ h x))).isSome = true
    · rw [if_pos hc] at ha; cases ha
      rw [List.map_append]
      exact (sound_iff _).2 (rep_accept ((sound_iff _).1 hp) (acceptTR_same hc))
    · rw [if_neg hc] at ha; cases ha

theorem sound_dropLast {es : List TRule} (h : Sound es) : Sound es.dropLast := by
  obtain ⟨ps, e, hp, hd⟩ := (sound_iff _).1 h
  exact (sound_iff _).2 ⟨ps.dropLast, by rw [e, List.map_dropLast],
    fun p hp' => hp p (List.dropLast_subset _ hp'), distinct_dropLast hd⟩

theorem sound_nil : Sound [] := (sound_iff _).2 ⟨[], rep_nil⟩

theorem at_append {h : List TRule} {x : Nat} {k : TKw} (hx : Has (at_ h x) k) (r : TRule) :
    at_ (h ++ [r]) x = at_ h x := by
  have hl : x < h.length := by
    by_cases hl : x < h.length
    · exact hl
    · simp only [at_, List.getElem?_eq_none (Nat.le_of_not_lt hl), Option.getD_none] at hx
      exact absurd hx.1 (by decide)
  simp only [at_, List.getElem?_append_left hl]

theorem at_modify (h : List TRule) (f : TRule → TRule) (x y : Nat) :
    at_ (h.modify x f) y = if y = x ∧ x < h.length then f (at_ h y) else at_ h y := by
  simp only [at_, List.getElem?_modify]
  by_cases hx : y = x
  · subst hx
    by_cases hl : y < h.length
    · rw [if_pos ⟨rfl, hl⟩, List.getElem?_eq_getElem hl]; simp
    · rw [if_neg (fun h => hl h.2), List.getElem?_eq_none (Nat.le_of_not_lt hl)]; rfl
  · rw [if_neg (fun h => hx h.1)]
    cases h[y]? with
    | none => rfl
    | some r => simp [Ne.symm hx]

/-- A change of a rule that leaves its keyword alone. -/
theorem keeps_change {m : Mem} (h : ∀ a, Keeps m a) (v : Nat) (f : TRule → TRule)
    (hf : ∀ r, (f r).core.init = r.core.init ∧ (f r).core.kw = r.core.kw) (a : Nat) :
    Keeps (m.change v f) a := by
  unfold Mem.change
  cases m.rvar v with
  | none => exact h a
  | some x =>
    rw [keeps_iff]
    intro es hes
    refine sound_congr (f := at_ m.rules) ?_ ((keeps_iff m a).1 (h a) es hes)
    intro y _ k
    show _ ↔ Has (at_ (m.rules.modify x f) y) k
    rw [at_modify]
    by_cases hc : y = x ∧ x < m.rules.length
    · rw [if_pos hc]
      simp only [Has, (hf (at_ m.rules y)).1, (hf (at_ m.rules y)).2]
    · rw [if_neg hc]

theorem keeps_edit {m : Mem} (h : ∀ a, Keeps m a) (l : Nat) (f : List Nat → List Nat)
    (hf : ∀ es, Sound (es.map (at_ m.rules)) → Sound ((f es).map (at_ m.rules))) (a : Nat) :
    Keeps (m.edit l f) a := by
  unfold Mem.edit
  cases m.lvar l with
  | none => exact h a
  | some b =>
    rw [keeps_iff]
    intro es hes
    simp only [List.getElem?_modify, Option.map_eq_map, Option.map_eq_some_iff] at hes
    obtain ⟨es', h1, h2⟩ := hes
    have hs := (keeps_iff m a).1 (h a) es' h1
    by_cases hb : b = a
    · simp only [hb, if_true] at h2; rw [← h2]; exact hf _ hs
    · simp only [hb, if_false] at h2; rw [← h2]; exact hs

theorem keeps_grow {m : Mem} (h : ∀ a, Keeps m a) (r : TRule) (v : Nat) (x : Option Nat) (a : Nat) :
    Keeps (Mem.put { m with rules := m.rules ++ [r] } v x) a := by
  rw [keeps_iff]
  intro es hes
  have hs := (keeps_iff m a).1 (h a) es hes
  refine sound_congr (f := at_ m.rules) ?_ hs
  intro y hy k
  obtain ⟨k', hk'⟩ := hs.known _ (List.mem_map_of_mem hy)
  show _ ↔ Has (at_ (m.rules ++ [r]) y) k
  rw [at_append hk']

theorem text_names (w : Str) (k : TKw) :
    Str.eqFold (TargetKeyword.string (matchTKW w)) k.name = true ↔ matchTKW w = tkwConst k := by
  by_cases h0 : matchTKW w = 0
  · rw [h0]
    constructor
    · intro h; cases k <;> exact absurd h (by decide)
    · intro h; exact absurd h.symm (tkwConst_ne k)
  · rw [matchTKW_zero] at h0
    simp only [Classical.not_forall, Bool.not_eq_false] at h0
    obtain ⟨l, hl⟩ := h0
    rw [(matchTKW_iff w l).2 hl, tkwConst_string, name_eqFold, decide_eq_true_eq]
    exact ⟨fun h => by rw [h], tkwConst_inj⟩

theorem string_names (c : TargetKeyword) (k : TKw) :
    Str.eqFold (TargetKeyword.string c) k.name = true ↔ TargetKeyword.string c = k.name := by
  have key : ∀ n < 256, ∀ k : TKw, (Str.eqFold (TargetKeyword.string (UInt8.ofNat n)) k.name = true ↔
      TargetKeyword.string (UInt8.ofNat n) = k.name) := by
    intro n hn k
    cases k <;> (revert n; decide +kernel)
  have := key c.toNat (UInt8.toNat_lt c) k
  simpa using this

/-- A rule has afterwards the keyword that was named. -/
theorem has_setKeyword {r : TRule} (hr : r.core.init = true) {kw : KwArg} (hk : kw ≠ .other) (k : TKw) :
    Has { r with core := TargetRule.setKeyword r.core kw } k ↔ Names kw k := by
  simp only [Has, Piece.setKeywordT r.core hr, hr, true_and]
  cases kw with
  | other => exact absurd rfl hk
  | str s =>
    simp only [Piece.KwArg.words, Option.map_some, Option.getD_some, text_names, Names, matchTKW_iff]
  | target c =>
    simp only [Piece.KwArg.words, Option.map_some, Option.getD_some, Names]
    rw [text_names, matchTKW_iff, string_names]
  | bind c =>
    simp only [Piece.KwArg.words, Option.map_some, Option.getD_some, Names, iff_false]
    rw [text_names, matchTKW_bind]
    exact fun h => tkwConst_ne k h.symm

theorem keeps_others (o : Outside) {m : Mem} (h : ∀ a, Keeps m a) (s : Stmt)
    (hs : ∀ v kw, s ≠ .keyword v kw) (a : Nat) : Keeps (m.exec o s) a := by
  cases s with
  | rule v kw op ex => exact keeps_grow h _ _ _ a
  | zero v => exact keeps_same (h a) rfl rfl
  | init v =>
    simp only [Mem.exec]
    cases m.rvar v with
    | some x => exact h a
    | none => exact keeps_grow h _ _ _ a
  | copy w v => exact keeps_same (h a) rfl rfl
  | keyword v kw => exact absurd rfl (hs v kw)
  | operator v op =>
    exact keeps_change h v _ (fun r => Piece.setOperatorT_keeps r.core op) a
  | expression v ex => exact keeps_change h v (fun r => r.setExpression ex) (fun r => ⟨rfl, rfl⟩) a
  | quote v n =>
    exact keeps_change h v _ (fun r => by rw [(Piece.quoteT_keeps r n).1]; exact ⟨rfl, rfl⟩) a
  | list l xs =>
    rw [keeps_iff]
    intro es hes
    by_cases ha : a < m.lists.length
    · simp only [Mem.exec, Mem.putList, List.getElem?_append_left ha] at hes
      exact (keeps_iff m a).1 (h a) es hes
    · simp only [Mem.exec, Mem.putList, List.getElem?_append_right (Nat.le_of_not_lt ha)] at hes
      have : es = stackPush o.stop (accept m.rules) [] (xs.map m.arg) := by
        have := List.mem_of_getElem? hes
        simpa using this
      rw [this]
      exact sound_push _ sound_nil
  | same k l => exact keeps_same (h a) rfl rfl
  | push l xs => exact keeps_edit h l _ (fun es hs => sound_push _ hs) a
  | pop v l =>
    have := keeps_edit h l List.dropLast (fun es hs => by rw [List.map_dropLast]; exact sound_dropLast hs) a
    exact keeps_same this rfl rfl
  | index v l i => exact keeps_same (h a) rfl rfl

/-! ## C115 -/

/-- **C115**, the full claim: whatever a program does, no list of target rules has more than nine
entries, an unknown keyword, or two rules of one keyword. -/
def OneOfEach : Prop := ∀ (o : Outside) (p : List Stmt) (a : Nat), Keeps (Mem.empty.run o p) a

/-- Two rules are pushed, and the second gets the keyword of the first. -/
def renamed : List Stmt :=
  [.rule 0 (.target Target) (.cop Eq') (.text b!"ldap:///cn=a"),
   .rule 1 (.target TargetScope) (.cop Eq') (.text b!"subtree"),
   .list 0 [some 0, some 1],
   .keyword 1 (.target Target)]

/-- A rule that was popped off one list is in another one. -/
def popped : List Stmt :=
  [.rule 0 (.target TargetScope) (.cop Eq') (.text b!"subtree"),
   .list 0 [some 0], .list 1 [some 0],
   .pop 2 1,
   .keyword 2 (.str b!"scope")]

def plainOutside : Outside := ⟨false, fun _ _ => none⟩

/-- **C115** fails: a list with two rules of the keyword `target`. -/
theorem C115_counterexample : ¬ OneOfEach := by
  intro h
  have hk := h plainOutside renamed 0
  refine hk.distinct 0 1 0 1 .target (by decide) ⟨[0, 1], by decide +kernel, rfl⟩ ⟨[0, 1], by decide +kernel, rfl⟩
    ((has_at _ _ _).2 ⟨by decide +kernel, by decide +kernel⟩) ((has_at _ _ _).2 ⟨by decide +kernel, by decide +kernel⟩)

/-- **C115**: a list with a rule whose keyword is unknown; the rule was changed after it had been popped
off another list. -/
theorem C115_unknown : ¬ Keeps (Mem.empty.run plainOutside popped) 0 := by
  intro hk
  obtain ⟨k, hk⟩ := hk.known 0 0 ⟨[0], by decide +kernel, rfl⟩
  have := (has_at _ _ _).1 hk
  revert this
  rintro ⟨_, h⟩
  revert h
  cases k <;> decide +kernel

/-- What is printed then. -/
example : (Mem.empty.run plainOutside renamed).text 0 =
    b!"( target = \"ldap:///cn=a\" )( target = \"subtree\" )" := by decide +kernel

example : (Mem.empty.run plainOutside popped).text 0 =
    b!"( <invalid_target_keyword> = \"subtree\" )" := by decide +kernel

/-- **C115**, exactly: when all lists are in order, they are so after `SetKeyword` if and only if
the new keyword is known and no other rule has it, in every list that has the rule. -/
theorem C115_keyword_iff (o : Outside) (m : Mem) (h : ∀ a, Keeps m a) (v : Nat) (kw : KwArg) :
    (∀ a, Keeps (m.exec o (.keyword v kw)) a) ↔ Careful m (.keyword v kw) := by
  have hent : ∀ a i x, Entry (m.exec o (.keyword v kw)) a i x ↔ Entry m a i x := by
    intro a i x
    simp only [Mem.exec, Mem.change]
    cases m.rvar v <;> exact Iff.rfl
  by_cases hko : kw = .other
  · subst hko
    refine ⟨fun _ => Or.inl rfl, fun _ => ?_⟩
    exact keeps_change h v (fun r => { r with core := TargetRule.setKeyword r.core .other })
      (fun r => ⟨rfl, rfl⟩)
  have hin : ∀ a i x, Entry m a i x → (at_ m.rules x).core.init = true ∧ x < m.rules.length := by
    intro a i x hx
    obtain ⟨k, r, hr, hk⟩ := (h a).known i x hx
    refine ⟨((has_at m x k).1 ⟨r, hr, hk⟩).1, (List.getElem?_eq_some_iff.1 hr).1⟩
  have his : ∀ x, m.rvar v = some x → ∀ a i y, Entry m a i y → ∀ k,
      Is (m.exec o (.keyword v kw)) y k ↔ if y = x then Names kw k else Is m y k := by
    intro x hx a i y hy k
    rw [has_at, has_at]
    simp only [Mem.exec, Mem.change, hx]
    rw [at_modify]
    by_cases hyx : y = x
    · subst hyx
      rw [if_pos ⟨rfl, (hin a i y hy).2⟩, if_pos rfl]
      exact has_setKeyword (hin a i y hy).1 hko k
    · rw [if_neg (fun h => hyx h.1), if_neg hyx]
  have hone : ∀ a i j x, Entry m a i x → Entry m a j x → i = j := by
    intro a i j x hi hj
    obtain ⟨k, hk⟩ := (h a).known i x hi
    rcases Nat.lt_trichotomy i j with hl | hl | hl
    · exact absurd hk ((h a).distinct i j x x k hl hi hj hk)
    · exact hl
    · exact absurd hk ((h a).distinct j i x x k hl hj hi hk)
  constructor
  · intro hall
    refine Or.inr fun x a i hx hi => ?_
    obtain ⟨k, hk⟩ := (hall a).known i x ((hent a i x).2 hi)
    have hn := (his x hx a i x hi k).1 hk
    rw [if_pos rfl] at hn
    refine ⟨k, hn, fun j y hj hyx hy => ?_⟩
    have hy' := (his x hx a j y hj k).2 (by rw [if_neg hyx]; exact hy)
    rcases Nat.lt_trichotomy i j with hl | hl | hl
    · exact (hall a).distinct i j x y k hl ((hent _ _ _).2 hi) ((hent _ _ _).2 hj) hk hy'
    · subst hl
      obtain ⟨es, h1, h2⟩ := hi
      obtain ⟨es', h3, h4⟩ := hj
      rw [h1] at h3; cases h3
      rw [h2] at h4; cases h4
      exact hyx rfl
    · exact (hall a).distinct j i y x k hl ((hent _ _ _).2 hj) ((hent _ _ _).2 hi) hy' hk
  · rintro (hc | hc) a
    · exact absurd hc hko
    cases hx : m.rvar v with
    | none =>
      have : m.exec o (.keyword v kw) = m := by simp only [Mem.exec, Mem.change, hx]
      rw [this]; exact h a
    | some x =>
      refine ⟨fun i y hy => (h a).short i y ((hent _ _ _).1 hy), ?_, ?_⟩
      · intro i y hy
        rw [hent] at hy
        by_cases hyx : y = x
        · subst hyx
          obtain ⟨k, hk, _⟩ := hc y a i hx hy
          exact ⟨k, (his y hx a i y hy k).2 (by rw [if_pos rfl]; exact hk)⟩
        · obtain ⟨k, hk⟩ := (h a).known i y hy
          exact ⟨k, (his x hx a i y hy k).2 (by rw [if_neg hyx]; exact hk)⟩
      · intro i j y z k hij hy hz hky hkz
        rw [hent] at hy hz
        rw [his x hx a i y hy] at hky
        rw [his x hx a j z hz] at hkz
        have huniq : ∀ k', Names kw k' → Names kw k → k' = k := by
          intro k' h1 h2
          have hr : (⟨⟨true, [], 0⟩, .nil, false, false⟩ : TRule).core.init = true := rfl
          exact has_unique ((has_setKeyword hr hko k').2 h1) ((has_setKeyword hr hko k).2 h2)
        by_cases hyx : y = x
        · by_cases hzx : z = x
          · subst hyx; subst hzx
            exact absurd (hone a i j _ hy hz) (by omega)
          · subst hyx
            rw [if_pos rfl] at hky
            rw [if_neg hzx] at hkz
            obtain ⟨k', hk', hn⟩ := hc y a i hx hy
            rw [huniq k' hk' hky] at hn
            exact hn j z hz hzx hkz
        · by_cases hzx : z = x
          · subst hzx
            rw [if_neg hyx] at hky
            rw [if_pos rfl] at hkz
            obtain ⟨k', hk', hn⟩ := hc z a j hx hz
            rw [huniq k' hk' hkz] at hn
            exact hn i y hy hyx hky
          · rw [if_neg hyx] at hky
            rw [if_neg hzx] at hkz
            exact (h a).distinct i j y z k hij hy hz hky hkz

/-- **C115**: all other statements keep lists in order. -/
theorem C115_others (o : Outside) (m : Mem) (h : ∀ a, Keeps m a) (s : Stmt)
    (hs : ∀ v kw, s ≠ .keyword v kw) (a : Nat) : Keeps (m.exec o s) a := keeps_others o h s hs a

/-- **C115** for programs that give no rule in a list a keyword that is unknown or taken.  Missing:
those that do. -/
theorem C115_partial (o : Outside) (p : List Stmt) (h : CarefulRun o Mem.empty p) (a : Nat) :
    Keeps (Mem.empty.run o p) a := by
  have key : ∀ (p : List Stmt) (m : Mem), (∀ a, Keeps m a) → CarefulRun o m p → ∀ a, Keeps (m.run o p) a := by
    intro p
    induction p with
    | nil => intro m hm _; exact hm
    | cons s p ih =>
      intro m hm hc
      refine ih (m.exec o s) ?_ hc.2
      by_cases hs : ∃ v kw, s = .keyword v kw
      · obtain ⟨v, kw, rfl⟩ := hs
        exact (C115_keyword_iff o m hm v kw).2 hc.1
      · exact fun a => keeps_others o hm s (fun v kw e => hs ⟨v, kw, e⟩) a
  refine key p Mem.empty ?_ h a
  intro a
  rw [keeps_iff]
  intro es hes
  simp [Mem.empty] at hes

/-- Programs that are not careful do no harm if the keyword is free. -/
example : CarefulRun plainOutside Mem.empty
    [.rule 0 (.target TargetScope) (.cop Eq') (.text b!"subtree"), .list 0 [some 0],
     .keyword 0 (.str b!"TargetFilter")] := by
  refine ⟨trivial, trivial, Or.inr fun x a i hx hi => ⟨.targetfilter, ?_, fun j y hj hy => ?_⟩, trivial⟩
  · show Str.eqFold _ _ = true
    decide +kernel
  · obtain ⟨es, h1, h2⟩ := hj
    have hx0 : x = 0 := by
      have : some 0 = some x := hx
      cases this; rfl
    have hes : es = [0] := by
      cases a with
      | zero =>
        have : some [0] = some es := (by decide +kernel : _ = some [0]).symm.trans h1
        cases this; rfl
      | succ n =>
        have : (Mem.exec plainOutside (Mem.exec plainOutside Mem.empty
          (.rule 0 (.target TargetScope) (.cop Eq') (.text b!"subtree"))) (.list 0 [some 0])).lists.length = 1 := by
          decide +kernel
        have := (List.getElem?_eq_some_iff.1 h1).1
        omega
    subst hes
    have := List.mem_of_getElem? h2
    simp only [List.mem_singleton] at this
    exact absurd (this.trans hx0.symm) hy

/-- The lists have at most nine entries, no rule twice, and only initialized rules. -/
def Shape (m : Mem) : Prop := ∀ es ∈ m.lists, es.length ≤ 9 ∧ es.Nodup ∧
  ∀ x ∈ es, (at_ m.rules x).core.init = true

theorem shape_push {h : List TRule} {stop : Bool} (xs : List (Option Nat)) {es : List Nat}
    (hs : es.length ≤ 9 ∧ es.Nodup ∧ ∀ x ∈ es, (at_ h x).core.init = true) :
    (stackPush stop (accept h) es xs).length ≤ 9 ∧ (stackPush stop (accept h) es xs).Nodup ∧
      ∀ x ∈ stackPush stop (accept h) es xs, (at_ h x).core.init = true := by
  refine stackPush_inv (P := fun es => es.length ≤ 9 ∧ es.Nodup ∧ ∀ x ∈ es, (at_ h x).core.init = true)
    ?_ xs hs
  rintro es x e ⟨h1, h2, h3⟩ ha
  cases x with
  | none => cases ha
  | some x =>
    simp only [accept] at ha
    by_cases hc : (acceptTR (es.map (at_ h)) (.rule (at_ h x))).isSome = true
    rotate_left
    · rw [if_neg hc] at ha; cases ha
    rw [if_pos hc] at ha
    obtain rfl := Option.some.inj ha
    simp only [acceptTR, List.length_map] at hc
    by_cases c1 : es.length ≥ 9
    · rw [if_pos c1] at hc; cases hc
    rw [if_neg c1] at hc
    by_cases c2 : (at_ h x).isZero = true
    · rw [if_pos c2] at hc; cases hc
    rw [if_neg c2] at hc
    by_cases c3 : (at_ h x).keyword = 0
    · rw [if_pos c3] at hc; cases hc
    rw [if_neg c3] at hc
    by_cases c4 : containsKw (es.map (at_ h)) (TargetKeyword.string (at_ h x).keyword) = true
    · rw [if_pos c4] at hc; cases hc
    have hx : x ∉ es := by
      intro hx
      refine c4 (List.any_eq_true.2 ⟨at_ h x, List.mem_map_of_mem hx, ?_⟩)
      rw [eqFold_iff]
    refine ⟨by simp; omega, ?_, ?_⟩
    · rw [List.nodup_append]
      refine ⟨h2, by simp, ?_⟩
      intro a hma b hb
      simp only [List.mem_singleton] at hb
      subst hb
      rintro rfl
      exact hx hma
    · intro y hy
      rcases List.mem_append.1 hy with hy | hy
      · exact h3 y hy
      · simp only [List.mem_singleton] at hy
        subst hy
        simpa [TRule.isZero] using c2

theorem init_lt {h : List TRule} {x : Nat} (hx : (at_ h x).core.init = true) : x < h.length := by
  by_cases hl : x < h.length
  · exact hl
  · simp only [at_, List.getElem?_eq_none (Nat.le_of_not_lt hl), Option.getD_none] at hx
    exact absurd hx (by decide)

theorem shape_rules {m m' : Mem} (hm : Shape m) (hl : m'.lists = m.lists)
    (hr : ∀ x, (at_ m.rules x).core.init = true → (at_ m'.rules x).core.init = true) : Shape m' := by
  intro es hes
  rw [hl] at hes
  obtain ⟨h1, h2, h3⟩ := hm es hes
  exact ⟨h1, h2, fun x hx => hr x (h3 x hx)⟩

theorem shape_change {m : Mem} (hm : Shape m) (v : Nat) (f : TRule → TRule)
    (hf : ∀ r, r.core.init = true → (f r).core.init = true) : Shape (m.change v f) := by
  unfold Mem.change
  cases m.rvar v with
  | none => exact hm
  | some x =>
    refine shape_rules hm rfl fun y hy => ?_
    show (at_ (m.rules.modify x f) y).core.init = true
    rw [at_modify]
    by_cases hc : y = x ∧ x < m.rules.length
    · rw [if_pos hc]; exact hf _ hy
    · rw [if_neg hc]; exact hy

theorem shape_grow {m : Mem} (hm : Shape m) (r : TRule) (v : Nat) (x : Option Nat) :
    Shape (Mem.put { m with rules := m.rules ++ [r] } v x) := by
  refine shape_rules hm rfl fun y hy => ?_
  show (at_ (m.rules ++ [r]) y).core.init = true
  have : at_ (m.rules ++ [r]) y = at_ m.rules y := by
    simp only [at_, List.getElem?_append_left (init_lt hy)]
  rw [this]; exact hy

theorem shape_edit {m : Mem} (hm : Shape m) (l : Nat) (f : List Nat → List Nat)
    (hf : ∀ es, (es.length ≤ 9 ∧ es.Nodup ∧ ∀ x ∈ es, (at_ m.rules x).core.init = true) →
      (f es).length ≤ 9 ∧ (f es).Nodup ∧ ∀ x ∈ f es, (at_ m.rules x).core.init = true) :
    Shape (m.edit l f) := by
  unfold Mem.edit
  cases m.lvar l with
  | none => exact hm
  | some b =>
    intro es hes
    obtain ⟨a, ha⟩ := List.getElem?_of_mem hes
    simp only [List.getElem?_modify, Option.map_eq_map, Option.map_eq_some_iff] at ha
    obtain ⟨es', h1, h2⟩ := ha
    have hs := hm es' (List.mem_of_getElem? h1)
    by_cases hb : b = a
    · simp only [hb, if_true] at h2; rw [← h2]; exact hf _ hs
    · simp only [hb, if_false] at h2; rw [← h2]; exact hs

theorem shape_exec (o : Outside) {m : Mem} (hm : Shape m) (s : Stmt) : Shape (m.exec o s) := by
  cases s with
  | rule v kw op ex => exact shape_grow hm _ _ _
  | zero v => exact hm
  | init v =>
    simp only [Mem.exec]
    cases m.rvar v with
    | some x => exact hm
    | none => exact shape_grow hm _ _ _
  | copy w v => exact hm
  | keyword v kw =>
    refine shape_change hm v _ fun r hr => ?_
    rw [Piece.setKeywordT r.core hr]; exact hr
  | operator v op =>
    exact shape_change hm v _ fun r hr => (Piece.setOperatorT_keeps r.core op).1.trans hr
  | expression v ex => exact shape_change hm v (fun r => r.setExpression ex) fun r hr => hr
  | quote v n =>
    exact shape_change hm v _ fun r hr => by rw [(Piece.quoteT_keeps r n).1]; exact hr
  | list l xs =>
    intro es hes
    rcases List.mem_append.1 hes with hes | hes
    · exact hm es hes
    · simp only [List.mem_singleton] at hes
      subst hes
      exact shape_push _ ⟨by simp, by simp, by simp⟩
  | same k l => exact hm
  | push l xs => exact shape_edit hm l _ fun es hs => shape_push _ hs
  | pop v l =>
    exact shape_edit hm l List.dropLast fun es hs =>
      ⟨by have := hs.1; rw [List.length_dropLast]; omega, hs.2.1.sublist (List.dropLast_sublist es),
        fun x hx => hs.2.2 x (List.dropLast_subset es hx)⟩
  | index v l i => exact hm

theorem shape_run (o : Outside) (p : List Stmt) {m : Mem} (hm : Shape m) : Shape (m.run o p) := by
  induction p generalizing m with
  | nil => exact hm
  | cons s p ih => exact ih (shape_exec o hm s)

/-- **C115**, what holds of every program: no list has more than nine entries, the same rule twice, or a
rule that was not initialized. -/
theorem C115_always (o : Outside) (p : List Stmt) (a : Nat) :
    (∀ i x, Entry (Mem.empty.run o p) a i x → i < 9) ∧
    (∀ i j x, Entry (Mem.empty.run o p) a i x → Entry (Mem.empty.run o p) a j x → i = j) ∧
    ∀ i x, Entry (Mem.empty.run o p) a i x → ∃ r, (Mem.empty.run o p).rules[x]? = some r ∧
      r.core.init = true := by
  have hs : Shape (Mem.empty.run o p) := shape_run o p (by intro es hes; cases hes)
  generalize Mem.empty.run o p = m at hs
  refine ⟨?_, ?_, ?_⟩
  · rintro i x ⟨es, h1, h2⟩
    have := (hs es (List.mem_of_getElem? h1)).1
    have := (List.getElem?_eq_some_iff.1 h2).1
    omega
  · rintro i j x ⟨es, h1, h2⟩ ⟨es', h3, h4⟩
    rw [h1] at h3; cases h3
    have hn := (hs es (List.mem_of_getElem? h1)).2.1
    obtain ⟨hi, ei⟩ := List.getElem?_eq_some_iff.1 h2
    obtain ⟨hj, ej⟩ := List.getElem?_eq_some_iff.1 h4
    exact (List.getElem_inj hn).1 (ei.trans ej.symm)
  · rintro i x ⟨es, h1, h2⟩
    have hi := (hs es (List.mem_of_getElem? h1)).2.2 x (List.mem_of_getElem? h2)
    have hl := init_lt hi
    refine ⟨m.rules[x], List.getElem?_eq_getElem hl, ?_⟩
    simpa [at_, List.getElem?_eq_getElem hl] using hi

/-- **C115**, pushes after any program: a rule is taken if and only if its keyword is known, no rule in
the list has it now, and there are fewer than nine entries. -/
theorem C115_push_iff (o : Outside) (p : List Stmt) (l v a x : Nat) (es : List Nat)
    (hl : (Mem.empty.run o p).lvar l = some a) (hes : (Mem.empty.run o p).lists[a]? = some es)
    (hv : (Mem.empty.run o p).rvar v = some x) :
    (((Mem.empty.run o p).exec o (.push l [some v])).lists[a]? = some (es ++ [x]) ↔
      es.length < 9 ∧ ∃ k, Is (Mem.empty.run o p) x k ∧ ∀ y ∈ es, ¬ Is (Mem.empty.run o p) y k) ∧
    (((Mem.empty.run o p).exec o (.push l [some v])).lists[a]? = some (es ++ [x]) ∨
      ((Mem.empty.run o p).exec o (.push l [some v])).lists[a]? = some es) := by
  have hs : Shape (Mem.empty.run o p) := shape_run o p (by intro es hes; cases hes)
  generalize Mem.empty.run o p = m at *
  have hin := (hs es (List.mem_of_getElem? hes)).2.2
  have hpush : (m.exec o (.push l [some v])).lists[a]? =
      some (match accept m.rules es (some x) with | some y => es ++ [y] | none => es) := by
    simp only [Mem.exec, Mem.edit, hl, List.getElem?_modify, hes, Option.map_eq_map, Option.map_some,
      if_true, List.map_cons, List.map_nil, Mem.arg, Option.bind_some, hv, stackPush]
    cases accept m.rules es (some x) with
    | some y => rfl
    | none => cases o.stop <;> rfl
  have hcont : ∀ k, Has (at_ m.rules x) k → (containsKw (es.map (at_ m.rules))
      (TargetKeyword.string (at_ m.rules x).keyword) = true ↔ ∃ y ∈ es, Is m y k) := by
    intro k hk
    rw [has_keyword hk, tkwConst_string, containsKw, List.any_map, List.any_eq_true]
    constructor
    · rintro ⟨y, hy, h⟩
      refine ⟨y, hy, (has_at m y k).2 ⟨hin y hy, ?_⟩⟩
      exact (matchTKW_iff _ _).1 ((text_names _ k).1 h)
    · rintro ⟨y, hy, h⟩
      exact ⟨y, hy, (text_names _ k).2 (has_keyword ((has_at m y k).1 h))⟩
  have hacc : accept m.rules es (some x) = some x ↔
      es.length < 9 ∧ ∃ k, Is m x k ∧ ∀ y ∈ es, ¬ Is m y k := by
    constructor
    · intro h
      simp only [accept] at h
      by_cases hc : (acceptTR (es.map (at_ m.rules)) (.rule (at_ m.rules x))).isSome = true
      rotate_left
      · rw [if_neg hc] at h; cases h
      rcases Classical.em (∃ k, Has (at_ m.rules x) k) with ⟨k, hk⟩ | hk
      · simp only [acceptTR, List.length_map] at hc
        by_cases c1 : es.length ≥ 9
        · rw [if_pos c1] at hc; cases hc
        refine ⟨by omega, k, (has_at m x k).2 hk, fun y hy hyk => ?_⟩
        rw [if_neg c1, if_neg (by simp [(has_not hk).1]), if_neg (has_not hk).2,
          if_pos ((hcont k hk).2 ⟨y, hy, hyk⟩)] at hc
        cases hc
      · rw [accept_not _ (fun k h => hk ⟨k, h⟩)] at hc; cases hc
    · rintro ⟨h9, k, hk, hn⟩
      rw [has_at] at hk
      have hc : ¬ containsKw (es.map (at_ m.rules)) (TargetKeyword.string (at_ m.rules x).keyword) = true := by
        intro hc
        obtain ⟨y, hy, hyk⟩ := (hcont k hk).1 hc
        exact hn y hy hyk
      have : acceptTR (es.map (at_ m.rules)) (.rule (at_ m.rules x)) = some (at_ m.rules x) := by
        simp only [acceptTR, List.length_map]
        rw [if_neg (Nat.not_le.2 h9), if_neg (by simp [(has_not hk).1]), if_neg (has_not hk).2, if_neg hc]
      simp only [accept, this, Option.isSome_some, if_true]
  have hor : accept m.rules es (some x) = some x ∨ accept m.rules es (some x) = none := by
    simp only [accept]; split
    · exact Or.inl rfl
    · exact Or.inr rfl
  rw [hpush, ← hacc]
  rcases hor with h | h
  · rw [h]; exact ⟨⟨fun _ => rfl, fun _ => rfl⟩, Or.inl rfl⟩
  · rw [h]
    refine ⟨⟨fun h' => ?_, fun h' => by cases h'⟩, Or.inr rfl⟩
    simp at h'

example : Mem.lvar (Mem.empty.run plainOutside renamed) 0 = some 0 ∧
    (Mem.empty.run plainOutside renamed).lists[0]? = some [0, 1] ∧
    (Mem.empty.run plainOutside renamed).rvar 1 = some 1 := ⟨rfl, by decide +kernel, rfl⟩

/-- **C115**, the frame: a statement that is no push or pop of the list and no setter of a rule in it leaves
the text of the list as it is. -/
theorem C115_frame (o : Outside) (p : List Stmt) (s : Stmt) (a : Nat) (ha : a < (Mem.empty.run o p).lists.length)
    (hl : ∀ l, s.onList = some l → (Mem.empty.run o p).lvar l ≠ some a)
    (hr : ∀ v i x, s.onRule = some v → Entry (Mem.empty.run o p) a i x → (Mem.empty.run o p).rvar v ≠ some x) :
    ((Mem.empty.run o p).exec o s).text a = (Mem.empty.run o p).text a := by
  have hs : Shape (Mem.empty.run o p) := shape_run o p (by intro es hes; cases hes)
  generalize Mem.empty.run o p = m at *
  have hes : m.lists[a]? = some m.lists[a] := List.getElem?_eq_getElem ha
  have hin := (hs _ (List.mem_of_getElem? hes)).2.2
  have htext : ∀ m' : Mem, m'.lists[a]? = m.lists[a]? →
      (∀ x ∈ m.lists[a], at_ m'.rules x = at_ m.rules x) → m'.text a = m.text a := by
    intro m' h1 h2
    simp only [Mem.text, h1, hes, Option.getD_some]
    rw [List.map_congr_left h2]
  have hgrow : ∀ r v y, Mem.text (Mem.put { m with rules := m.rules ++ [r] } v y) a = m.text a := by
    intro r v y
    refine htext _ rfl fun x hx => ?_
    show at_ (m.rules ++ [r]) x = _
    simp only [at_, List.getElem?_append_left (init_lt (hin x hx))]
  have hchange : ∀ v f, (∀ i x, Entry m a i x → m.rvar v ≠ some x) → Mem.text (m.change v f) a = m.text a := by
    intro v f h
    unfold Mem.change
    cases hv : m.rvar v with
    | none => rfl
    | some x =>
      refine htext _ rfl fun y hy => ?_
      show at_ (m.rules.modify x f) y = _
      rw [at_modify, if_neg]
      rintro ⟨rfl, _⟩
      obtain ⟨i, hi⟩ := List.getElem?_of_mem hy
      exact h i y ⟨_, hes, hi⟩ hv
  have hedit : ∀ l f, m.lvar l ≠ some a → (m.edit l f).lists[a]? = m.lists[a]? ∧ (m.edit l f).rules = m.rules := by
    intro l f h
    unfold Mem.edit
    cases hv : m.lvar l with
    | none => exact ⟨rfl, rfl⟩
    | some b =>
      have hb : b ≠ a := fun e => h (by rw [hv, e])
      simp only [List.getElem?_modify, hes, Option.map_eq_map, Option.map_some, if_neg hb]
      exact ⟨trivial, trivial⟩
  cases s with
  | rule v kw op ex => exact hgrow _ _ _
  | zero v => rfl
  | init v =>
    simp only [Mem.exec]
    cases m.rvar v with
    | some x => rfl
    | none => exact hgrow _ _ _
  | copy w v => rfl
  | keyword v kw => exact hchange v _ fun i x hx => hr v i x rfl hx
  | operator v op => exact hchange v _ fun i x hx => hr v i x rfl hx
  | expression v ex => exact hchange v _ fun i x hx => hr v i x rfl hx
  | quote v n => exact hchange v _ fun i x hx => hr v i x rfl hx
  | list l xs =>
    refine htext _ ?_ fun x hx => rfl
    simp only [Mem.exec, Mem.putList, List.getElem?_append_left ha]
  | same k l => rfl
  | push l xs =>
    obtain ⟨h1, h2⟩ := hedit l (fun es => stackPush o.stop (accept m.rules) es (xs.map m.arg)) (hl l rfl)
    refine htext _ h1 fun x hx => ?_
    show at_ (Mem.edit m l _).rules x = _
    rw [h2]
  | pop v l =>
    obtain ⟨h1, h2⟩ := hedit l List.dropLast (hl l rfl)
    refine htext _ h1 fun x hx => ?_
    show at_ (Mem.edit m l _).rules x = _
    rw [h2]
  | index v l i => rfl

example : (Mem.empty.run plainOutside (renamed ++ [.operator 1 (.cop Ne')])).text 0 ≠
    (Mem.empty.run plainOutside renamed).text 0 := by decide +kernel

/-- **C115**: `Pop` takes the last entry off the list and `Index` shows an entry; either returns the rule that is
kept, not a copy. -/
theorem C115_returns (o : Outside) (p : List Stmt) (l v a : Nat) (es : List Nat)
    (hl : (Mem.empty.run o p).lvar l = some a) (hes : (Mem.empty.run o p).lists[a]? = some es) :
    (∀ es' x, es = es' ++ [x] → ((Mem.empty.run o p).exec o (.pop v l)).lists[a]? = some es' ∧
      ((Mem.empty.run o p).exec o (.pop v l)).rvar v = some x) ∧
    (es = [] → ((Mem.empty.run o p).exec o (.pop v l)).lists[a]? = some [] ∧
      ((Mem.empty.run o p).exec o (.pop v l)).rvar v = none) ∧
    ∀ (i : Nat) (x : Nat), es[i]? = some x → ((Mem.empty.run o p).exec o (.index v l i)).rvar v = some x ∧
      ((Mem.empty.run o p).exec o (.index v l i)).lists[a]? = some es := by
  generalize Mem.empty.run o p = m at hl hes ⊢
  have he : m.entries l = es := by simp only [Mem.entries, hl, hes, Option.getD_some]
  have hd : ((m.edit l List.dropLast).put v (m.entries l).getLast?).lists[a]? = some es.dropLast := by
    simp only [Mem.put, Mem.edit, hl, List.getElem?_modify, if_true, hes]
    rfl
  refine ⟨?_, ?_, ?_⟩
  · rintro es' x rfl
    refine ⟨hd.trans (by rw [List.dropLast_concat]), ?_⟩
    simp only [Mem.exec, Mem.put, if_true, he, List.getLast?_concat]
  · rintro rfl
    refine ⟨hd, ?_⟩
    simp only [Mem.exec, Mem.put, if_true, he, List.getLast?_nil]
  · intro i x hx
    have hi := (List.getElem?_eq_some_iff.1 hx).1
    refine ⟨?_, hes⟩
    simp only [Mem.exec, Mem.put, if_true, he, indexAt]
    rw [if_pos ⟨Int.natCast_nonneg i, by omega⟩, Int.toNat_natCast, hx]

example : ∃ l a es' x, (Mem.empty.run plainOutside popped).lvar l = some a ∧
    (Mem.empty.run plainOutside popped).lists[a]? = some (es' ++ [x]) :=
  ⟨0, 0, [], 0, by decide +kernel, by decide +kernel⟩

end Verif.Held
