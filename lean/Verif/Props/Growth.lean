import Verif.Lemmas.Inside
import Verif.Props.Filter
import Verif.Props.Uri
import Verif.Props.DN
import Verif.Props.Keyword
import Verif.Props.Levels

/-!
# How long the text of what was read can be (C141)
-/

namespace Verif.Growth
open Verif Verif.Misc

/-! ## Lengths of texts -/

theorem trim_length (s : Str) : (Str.trimSpace s).length ≤ s.length := by
  unfold Str.trimSpace
  have h1 := trimLeft_length s
  have h2 := trimLeftRev_length (Str.trimLeft s).reverse
  simp only [List.length_reverse] at h2 ⊢
  omega

theorem encode_length (c : Byte) : (encodeByte c).length ≤ 2 ∧ (c < 128 → (encodeByte c).length = 1) := by
  unfold encodeByte
  constructor
  · split <;> simp
  · intro h; simp [h]

theorem loop_length (s : Str) : ∀ b, (condenseLoop b s).length ≤ 2 * s.length ∧
    ((∀ c ∈ s, c < 128) → (condenseLoop b s).length ≤ s.length) := by
  induction s with
  | nil => intro b; simp [condenseLoop]
  | cons c s ih =>
    intro b
    have e := encode_length c
    simp only [condenseLoop]
    split
    · split
      · have := ih true
        refine ⟨by simp only [List.length_cons]; omega, fun h => ?_⟩
        have := this.2 fun c hc => h c (List.mem_cons_of_mem _ hc)
        simp only [List.length_cons]; omega
      · have := ih true
        refine ⟨by simp only [List.length_cons]; omega, fun h => ?_⟩
        have := this.2 fun c hc => h c (List.mem_cons_of_mem _ hc)
        simp only [List.length_cons]; omega
    · have := ih false
      simp only [List.length_append, List.length_cons]
      refine ⟨by omega, fun h => ?_⟩
      have := this.2 fun c hc => h c (List.mem_cons_of_mem _ hc)
      have := e.2 (h c List.mem_cons_self)
      omega

theorem trim_mem {s : Str} {c : Byte} (h : c ∈ Str.trimSpace s) : c ∈ s := by
  unfold Str.trimSpace at h
  rw [List.mem_reverse] at h
  obtain ⟨l, -, h2⟩ := trimLeftRev_split (Str.trimLeft s).reverse
  have h3 : c ∈ (Str.trimLeft s).reverse := by rw [h2]; exact List.mem_append_right _ h
  rw [List.mem_reverse] at h3
  obtain ⟨l, -, h2⟩ := trimLeft_split s
  rw [h2]; exact List.mem_append_right _ h3

/-- **C141** for the texts that are read: taking white space away at most doubles the length, and
does not make ASCII text longer. -/
theorem C141_condensed (s : Str) : (condenseWHSP s).length ≤ 2 * s.length ∧
    ((∀ c ∈ s, c < 128) → (condenseWHSP s).length ≤ s.length) := by
  unfold condenseWHSP
  have h1 := trim_length (condenseLoop false ((Str.trimSpace s).map fun c => if c = 10 then 32 else c))
  have h2 := loop_length ((Str.trimSpace s).map fun c => if c = 10 then 32 else c) false
  have h3 := trim_length s
  simp only [List.length_map] at h2
  refine ⟨by omega, fun h => ?_⟩
  have := h2.2 (by
    intro c hc
    obtain ⟨d, hd, rfl⟩ := List.mem_map.1 hc
    split
    · decide
    · exact h d (trim_mem hd))
  omega

example : (condenseWHSP [0xC3, 0xA9]).length = 4 ∧ (condenseWHSP b!"  a   b ").length = 3 := by decide +kernel

theorem unquote_length (s : Str) : (unquote s).length ≤ s.length := by
  have d : ∀ s, (dropQuote s).length ≤ s.length := by
    intro s
    cases s with
    | nil => simp [dropQuote]
    | cons c s => simp only [dropQuote]; split <;> simp
  unfold unquote
  split
  · exact Nat.le_refl _
  · have h1 := d s
    have h2 := d (dropQuote s).reverse
    simp only [List.length_reverse] at h2 ⊢
    omega

/-- The claim: no text grows by being read. -/
def NoGrowth : Prop := ∀ (raw : Str) (f : Filter.AttributeFilter), Filter.AttributeFilter.parse raw = .ok f →
  (Filter.AttributeFilter.string f).length ≤ raw.length

/-- **C141** fails: the letter é in a filter becomes two letters. -/
theorem C141_counterexample : ¬ NoGrowth := by
  intro h
  have e : Filter.AttributeFilter.parse (b!"cn:(cn=" ++ [0xC3, 0xA9] ++ b!")") =
      .ok (some ⟨some b!"cn", some (b!"(cn=" ++ [0xC3, 0x83, 0xC2, 0xA9] ++ b!")")⟩) := by
    rfl
  have := h _ _ e
  revert this
  decide +kernel

/-! ## Filters -/

theorem filter_length {raw : Str} {f : Filter.AttributeFilter} (h : Filter.parseAttributeFilter raw = .ok f) :
    (Filter.AttributeFilter.string f).length ≤ raw.length := by
  unfold Filter.parseAttributeFilter at h
  cases e : Str.cut1 58 raw with
  | none => rw [e] at h; cases h
  | some pq =>
    obtain ⟨p, q⟩ := pq
    rw [e] at h
    obtain ⟨rfl, -⟩ := Str.cut1_some e
    simp only at h
    split at h
    · cases h
    · injection h with h
      subst h
      simp only [Filter.AttributeFilter.set, Filter.AttributeFilter.isZero, Filter.Atf.set, List.foldl_cons, List.foldl_nil,
        Filter.Atf.set1, if_true, Filter.AttributeFilter.string]
      split
      · rename_i hv
        simp only [Filter.AttributeFilter.valid, Bool.and_eq_true, Bool.not_eq_true'] at hv
        have h1 : Attr.AttributeType.string (Attr.AT p) = p := by
          unfold Attr.AT at hv ⊢
          split
          · rfl
          · rename_i hn; rw [if_neg hn] at hv; simp [Attr.AttributeType.isZero] at hv
        have h2 : (Filter.SearchFilter.string (Filter.mkFilter q)).length ≤ q.length := Nat.le_refl _
        simp only [h1, List.length_append, List.length_cons]
        omega
      · simp

/-- **C141** for attribute filters.  Missing: text above ASCII, which grows (`C141_counterexample`)
to at most twice its length. -/
theorem C141_filter_partial (raw : Str) (f : Filter.AttributeFilter) (h : Filter.AttributeFilter.parse raw = .ok f) :
    (Filter.AttributeFilter.string f).length ≤ 2 * raw.length ∧
    ((∀ c ∈ raw, c < 128) → (Filter.AttributeFilter.string f).length ≤ raw.length) := by
  have h1 := C141_condensed raw
  have h2 := unquote_length (condenseWHSP raw)
  unfold Filter.AttributeFilter.parse at h
  simp only at h
  split at h
  · cases h
  · have := filter_length h
    exact ⟨by omega, fun hc => by have := h1.2 hc; omega⟩

example : ∃ f, Filter.AttributeFilter.parse b!" cn:(cn=a  b) " = .ok f ∧ Filter.AttributeFilter.string f = b!"cn:(cn=a b)" :=
  ⟨_, rfl, by decide +kernel⟩

/-! ## Operations -/

/-- The length of pieces with separators of `n` bytes. -/
def total (n : Nat) : List Str → Nat
  | [] => 0
  | [a] => a.length
  | a :: b :: l => a.length + n + total n (b :: l)

theorem join_total (sep : Str) (l : List Str) : (Str.join sep l).length = total sep.length l := by
  match l with
  | [] => rfl
  | [a] => rfl
  | a :: b :: l => simp [Str.join, total, join_total sep (b :: l)]; omega

theorem total_cons (n : Nat) (a : Str) (l : List Str) : a.length + total n l ≤ total n (a :: l) := by
  cases l <;> simp [total] <;> omega

theorem total_sublist {n : Nat} {l m : List Str} (h : l.Sublist m) : total n l ≤ total n m := by
  induction h with
  | slnil => exact Nat.le_refl _
  | cons a _ ih => exact Nat.le_trans ih (Nat.le_trans (Nat.le_add_left _ _) (total_cons n a _))
  | @cons_cons l m a hs ih =>
    cases l with
    | nil => simp only [total]; exact Nat.le_trans (Nat.le_add_right _ _) (total_cons n a m)
    | cons b l =>
      cases m with
      | nil => cases hs
      | cons c m => simp only [total]; omega

theorem total_consHead (n : Nat) (a : Byte) (l : List Str) : total n (Str.consHead a l) = total n l + 1 := by
  match l with
  | [] => rfl
  | [b] => rfl
  | b :: c :: l => simp [Str.consHead, total]; omega

theorem split2_total (c d : Byte) : ∀ s : Str, total 2 (Str.split2 c d s) = s.length
  | [] => rfl
  | [a] => rfl
  | a :: b :: t => by
    rw [Str.split2]
    split
    · have := split2_total c d t
      have hne : Str.split2 c d t ≠ [] := by
        cases t with
        | nil => simp [Str.split2]
        | cons x t => cases t <;> simp only [Str.split2] <;> (try split) <;> (try simp) <;> (try (unfold Str.consHead; split <;> simp))
      cases e : Str.split2 c d t with
      | nil => exact absurd e hne
      | cons x l => rw [e] at this; simp only [total, List.length_cons, List.length_nil]; omega
    · rw [total_consHead, split2_total c d (b :: t)]; simp

theorem split1_total (c : Byte) (s : Str) : total 1 (Str.split1 c s) = s.length := by
  induction s with
  | nil => rfl
  | cons a t ih =>
    simp only [Str.split1]
    split
    · have hne := Str.split1_ne_nil c t
      cases e : Str.split1 c t with
      | nil => exact absurd e hne
      | cons x l => rw [e] at ih; simp only [total, List.length_cons, List.length_nil]; omega
    · rw [total_consHead, ih]; simp

theorem total_replace (n : Nat) (a b : Str) (l : List Str) (h : a.length ≤ b.length) : ∀ k : List Str,
    total n (k ++ a :: l) ≤ total n (k ++ b :: l)
  | [] => by cases l <;> simp [total] <;> omega
  | [x] => by have := total_replace n a b l h []; simp only [List.nil_append] at this; simp only [List.singleton_append, total]; omega
  | x :: y :: k => by have := total_replace n a b l h (y :: k); simp only [List.cons_append] at this ⊢; simp only [total]; omega

theorem total_twice (l : List Str) : total 4 l ≤ 2 * total 2 l := by
  match l with
  | [] => simp [total]
  | [a] => simp [total]; omega
  | a :: b :: l => have := total_twice (b :: l); simp only [total]; omega

theorem seq_length (n : Nat) (seq : List Str) : ∀ afo o : Filter.AFO, Filter.parseSeq afo seq = .ok o →
    o.cat = afo.cat ∧ total n (o.entries.map Filter.AttributeFilter.string) ≤ total n (afo.entries.map Filter.AttributeFilter.string ++ seq) := by
  induction seq with
  | nil => intro afo o h; simp only [Filter.parseSeq, Except.ok.injEq] at h; subst h; simp
  | cons s seq ih =>
    intro afo o h
    simp only [Filter.parseSeq] at h
    cases e : Filter.parseAttributeFilter (Str.trimSpace s) with
    | error x => rw [e] at h; cases h
    | ok af =>
      rw [e] at h
      obtain ⟨h1, h2⟩ := ih _ _ h
      refine ⟨h1, Nat.le_trans h2 ?_⟩
      have hl := Nat.le_trans (filter_length e) (trim_length s)
      simp only [Filter.AFO.push, List.foldl_cons, List.foldl_nil, Filter.AFO.push1, Filter.pushAF]
      have skip : total n (afo.entries.map Filter.AttributeFilter.string ++ seq) ≤ total n (afo.entries.map Filter.AttributeFilter.string ++ s :: seq) :=
        total_sublist (List.Sublist.append_left (List.sublist_cons_self _ _) _)
      split
      · exact skip
      · split
        · simp only [List.map_append, List.map_cons, List.map_nil, List.append_assoc, List.singleton_append]
          exact total_replace n _ _ _ hl _
        · exact skip

/-- **C141** for operations.  Missing: that they do not grow; the spaces around `&&` are added when
they are printed. -/
theorem C141_operation_partial (raw : Str) (o : Filter.AFO) (h : Filter.parseAFO raw = .ok o) :
    o.string.length ≤ 4 * raw.length ∧ ((∀ c ∈ raw, c < 128) → o.string.length ≤ 2 * raw.length) := by
  have h1 := C141_condensed raw
  have h2 := unquote_length (condenseWHSP raw)
  suffices hs : o.string.length ≤ 2 * (unquote (condenseWHSP raw)).length from
    ⟨by omega, fun hc => by have := h1.2 hc; omega⟩
  unfold Filter.parseAFO at h
  simp only at h
  generalize unquote (condenseWHSP raw) = t at h ⊢
  have main : ∀ (aop : Filter.AttributeOperation) (val : Str), aop = Filter.AddOp ∨ aop = Filter.DelOp →
      t.length = (Filter.AttributeOperation.string aop).length + 1 + val.length →
      Filter.parseSeq (aop.afo []) (Str.split2 38 38 (Str.trimSpace val)) = .ok o → o.string.length ≤ 2 * t.length := by
    intro aop val ha ht h
    obtain ⟨h1, h2⟩ := seq_length 4 _ _ _ h
    have h3 : o.operation = (aop.afo []).operation := by unfold Filter.AFO.operation; rw [h1]
    have h4 : (aop.afo []).operation = aop := by rcases ha with rfl | rfl <;> decide +kernel
    have h5 : total 4 (Str.split2 38 38 (Str.trimSpace val)) ≤ 2 * val.length := by
      have a := total_twice (Str.split2 38 38 (Str.trimSpace val))
      have b := trim_length val
      rw [split2_total] at a
      omega
    have h6 : (aop.afo []).entries = [] := by rcases ha with rfl | rfl <;> rfl
    rw [h6] at h2
    simp only [List.map_nil, List.nil_append] at h2
    unfold Filter.AFO.string
    rw [h3, h4, List.length_append, List.length_append, join_total]
    have : total (b!" && ").length (o.entries.map Filter.AttributeFilter.string) ≤ 2 * val.length := Nat.le_trans h2 h5
    simp only [List.length_cons, List.length_nil] at this ⊢
    omega
  split at h
  · cases h
  · cases e : Filter.parsePreamble t with
    | error x => rw [e] at h; cases h
    | ok av =>
      obtain ⟨aop, val⟩ := av
      rw [e] at h
      unfold Filter.parsePreamble at e
      split at e
      · rename_i hp
        have := Filter.hasPrefix_length hp
        simp only [Except.ok.injEq, Prod.mk.injEq] at e
        obtain ⟨rfl, rfl⟩ := e
        refine main _ _ (.inl rfl) ?_ h
        have e4 : (Filter.AttributeOperation.string Filter.AddOp).length = 3 := by decide
        simp only [List.length_cons, List.length_nil] at this
        rw [List.length_drop, e4]; omega
      · split at e
        · rename_i hp
          have := Filter.hasPrefix_length hp
          simp only [Except.ok.injEq, Prod.mk.injEq] at e
          obtain ⟨rfl, rfl⟩ := e
          refine main _ _ (.inr rfl) ?_ h
          have e4 : (Filter.AttributeOperation.string Filter.DelOp).length = 6 := by decide
          simp only [List.length_cons, List.length_nil] at this
          rw [List.length_drop, e4]; omega
        · cases e

/-- The operation that is printed is longer than the one that was read. -/
example : ∃ o, Filter.parseAFO b!"add=a:b&&c:d&&e:f" = .ok o ∧ o.string = b!"add=a:b && c:d && e:f" :=
  ⟨_, rfl, by decide +kernel⟩

/-! ## Lists of operations -/

theorem loop_ascii (s : Str) (h : ∀ c ∈ s, c < 128) : ∀ b, ∀ c ∈ condenseLoop b s, c < 128 := by
  induction s with
  | nil => intro b c hc; simp [condenseLoop] at hc
  | cons a s ih =>
    have ih := ih fun c hc => h c (List.mem_cons_of_mem _ hc)
    intro b c hc
    simp only [condenseLoop] at hc
    split at hc
    · split at hc
      · exact ih _ c hc
      · rcases List.mem_cons.1 hc with rfl | hc
        · decide
        · exact ih _ c hc
    · rcases List.mem_append.1 hc with hc | hc
      · have ha := h a List.mem_cons_self
        simp only [encodeByte, if_pos ha, List.mem_singleton] at hc
        subst hc
        exact ha
      · exact ih _ c hc

theorem condense_ascii {s : Str} (h : ∀ c ∈ s, c < 128) : ∀ c ∈ condenseWHSP s, c < 128 := by
  intro c hc
  unfold condenseWHSP at hc
  refine loop_ascii _ ?_ false c (trim_mem hc)
  intro c hc
  obtain ⟨d, hd, rfl⟩ := List.mem_map.1 hc
  split
  · decide
  · exact h d (trim_mem hd)

theorem unquote_mem {s : Str} {c : Byte} (h : c ∈ unquote s) : c ∈ s := by
  have d : ∀ s : Str, ∀ c ∈ dropQuote s, c ∈ s := by
    intro s c hc
    cases s with
    | nil => simp [dropQuote] at hc
    | cons a s =>
      simp only [dropQuote] at hc
      split at hc
      · exact List.mem_cons_of_mem _ hc
      · exact hc
  unfold unquote at h
  split at h
  · exact h
  · have := d _ _ (List.mem_reverse.1 h)
    exact d _ _ (List.mem_reverse.1 this)

theorem split1_mem {s v : Str} {d : Byte} (hv : v ∈ Str.split1 d s) : ∀ c ∈ v, c ∈ s := by
  induction s generalizing v with
  | nil => simp only [Str.split1, List.mem_singleton] at hv; subst hv; simp
  | cons a s ih =>
    simp only [Str.split1] at hv
    split at hv
    · rcases List.mem_cons.1 hv with rfl | hv
      · simp
      · intro c hc; exact List.mem_cons_of_mem _ (ih hv c hc)
    · cases e : Str.split1 d s with
      | nil => exact absurd e (Str.split1_ne_nil d s)
      | cons x l =>
        rw [e] at hv
        simp only [Str.consHead] at hv
        rcases List.mem_cons.1 hv with rfl | hv
        · intro c hc
          rcases List.mem_cons.1 hc with rfl | hc
          · exact List.mem_cons_self
          · exact List.mem_cons_of_mem _ (ih (by rw [e]; exact List.mem_cons_self) c hc)
        · intro c hc
          exact List.mem_cons_of_mem _ (ih (by rw [e]; exact List.mem_cons_of_mem _ hv) c hc)

/-- The length of pieces that are `k` times as long. -/
def weighed (k n : Nat) : List Str → Nat
  | [] => 0
  | [a] => k * a.length
  | a :: b :: l => k * a.length + n + weighed k n (b :: l)

theorem weighed_total (k n : Nat) (hk : 1 ≤ k) : ∀ l : List Str, weighed k n l ≤ k * total n l
  | [] => by simp [weighed]
  | [a] => by simp [weighed, total]
  | a :: b :: l => by
    have := weighed_total k n hk (b :: l)
    simp only [weighed, total, Nat.mul_add]
    have : n ≤ k * n := Nat.le_mul_of_pos_left _ hk
    omega

/-- The length of the entries of a list and of the pieces that are still to be read. -/
def mixed (k n : Nat) (es : List Str) (l : List Str) : Nat :=
  match es, l with
  | es, [] => total n es
  | [], l => weighed k n l
  | es, l => total n es + n + weighed k n l

theorem total_snoc (n : Nat) (a : Str) : ∀ l : List Str, l ≠ [] → total n (l ++ [a]) = total n l + n + a.length
  | [], h => absurd rfl h
  | [x], _ => by simp [total]
  | x :: y :: l, _ => by
    have := total_snoc n a (y :: l) (by simp)
    simp only [List.cons_append] at this ⊢
    simp only [total]
    omega

theorem mixed_skip (k n : Nat) (es : List Str) (v : Str) (l : List Str) : mixed k n es l ≤ mixed k n es (v :: l) := by
  cases es <;> cases l <;> simp [mixed, weighed, total] <;> omega

theorem mixed_take (k n : Nat) (es : List Str) (t v : Str) (l : List Str) (h : t.length ≤ k * v.length) :
    mixed k n (es ++ [t]) l ≤ mixed k n es (v :: l) := by
  cases es with
  | nil => cases l <;> simp [mixed, weighed, total] <;> omega
  | cons e es =>
    have := total_snoc n t (e :: es) (by simp)
    simp only [List.cons_append] at this
    cases l <;> simp only [List.cons_append, mixed, weighed, this] <;> omega

theorem vals_length (k : Nat) (vals : List Str)
    (hk : ∀ v ∈ vals, ∀ a, Filter.parseAFO (unquote (condenseWHSP v)) = .ok a → a.string.length ≤ k * v.length) :
    ∀ r o : Filter.AFOs, Filter.parseVals r vals = .ok o →
      o.delim = r.delim ∧ total 1 (o.entries.map Filter.AFO.string) ≤ mixed k 1 (r.entries.map Filter.AFO.string) vals := by
  induction vals with
  | nil =>
    intro r o h
    simp only [Filter.parseVals, Except.ok.injEq] at h
    subst h
    exact ⟨rfl, by simp [mixed]⟩
  | cons v vals ih =>
    intro r o h
    simp only [Filter.parseVals] at h
    split at h
    · cases e : Filter.parseAFO (unquote (condenseWHSP v)) with
      | error x => rw [e] at h; cases h
      | ok a =>
        rw [e] at h
        obtain ⟨h1, h2⟩ := ih (fun v hv => hk v (List.mem_cons_of_mem _ hv)) _ _ h
        refine ⟨h1, Nat.le_trans h2 ?_⟩
        have hl := hk v List.mem_cons_self a e
        simp only [Filter.AFOs.push, List.foldl_cons, List.foldl_nil, Filter.AFOs.push1, Filter.pushAFO]
        split
        · exact mixed_skip _ _ _ _ _
        · split
          · simp only [List.map_append, List.map_cons, List.map_nil]
            exact mixed_take _ _ _ _ _ _ hl
          · exact mixed_skip _ _ _ _ _
    · cases h

/-- **C141** for lists of operations.  Missing: as for operations; text above ASCII is condensed
twice. -/
theorem C141_operations_partial (raw : Str) (delim : Int) (o : Filter.AFOs) (h : Filter.parseAFOs raw delim = .ok o) :
    o.string.length ≤ 8 * raw.length ∧ ((∀ c ∈ raw, c < 128) → o.string.length ≤ 2 * raw.length) := by
  have inner : ∀ v : Str, (unquote (condenseWHSP v)).length ≤ 2 * v.length ∧
      ((∀ c ∈ v, c < 128) → (unquote (condenseWHSP v)).length ≤ v.length) := by
    intro v
    have h1 := C141_condensed v
    have h2 := unquote_length (condenseWHSP v)
    exact ⟨by omega, fun hc => by have := h1.2 hc; omega⟩
  have main : ∀ k : Nat, 1 ≤ k → (∀ v ∈ Str.split1 (Filter.afosDelim delim) raw, ∀ a,
      Filter.parseAFO (unquote (condenseWHSP v)) = .ok a → a.string.length ≤ k * v.length) → o.string.length ≤ k * raw.length := by
    intro k h1 hk
    unfold Filter.parseAFOs at h
    simp only at h
    split at h
    · cases h
    · split at h
      · cases h
      · obtain ⟨-, h2⟩ := vals_length k _ hk _ _ h
        unfold Filter.AFOs.string
        rw [join_total]
        refine Nat.le_trans h2 ?_
        have h3 := weighed_total k 1 h1 (Str.split1 (Filter.afosDelim delim) raw)
        rw [split1_total] at h3
        refine Nat.le_trans ?_ h3
        cases e : Str.split1 (Filter.afosDelim delim) raw with
        | nil => exact absurd e (Str.split1_ne_nil _ _)
        | cons x l => exact Nat.le_refl _
  refine ⟨main 8 (by omega) ?_, fun hc => main 2 (by omega) ?_⟩
  · intro v _ a ha
    have h1 := (inner v).1
    have h2 := (C141_operation_partial _ a ha).1
    omega
  · intro v hv a ha
    have hv' : ∀ c ∈ v, c < 128 := fun c hcv => hc c (split1_mem hv c hcv)
    have h1 := (inner v).2 hv'
    have h2 := (C141_operation_partial _ a ha).2 fun c hcv => condense_ascii hv' c (unquote_mem hcv)
    omega

example : ∃ o, Filter.parseAFOs b!"add=a:b&&c:d;delete=e:f" 1 = .ok o ∧ o.string = b!"add=a:b && c:d,delete=e:f" :=
  ⟨_, rfl, by decide +kernel⟩

/-! ## Pairs, names and addresses -/

theorem fold_length : ∀ s : Str, (Str.fold s).length ≤ s.length
  | [] => by simp [Str.fold]
  | [a] => by simp [Str.fold]
  | [a, b] => by
    have := fold_length [b]
    simp only [Str.fold]
    split <;> simp
  | a :: b :: c :: t => by
    have h1 := fold_length t
    have h2 := fold_length (c :: t)
    have h3 := fold_length (b :: c :: t)
    simp only [Str.fold]
    split
    · simp only [List.length_cons]; omega
    · split
      · simp only [List.length_cons] at h2 ⊢; omega
      · simp only [List.length_cons] at h3 ⊢; omega

theorem bt_length {q : Str} (h : matchBT q ≠ 0) : (BindType.string (matchBT q)).length ≤ q.length := by
  have hq := fold_length q
  obtain ⟨c1, c2, c3⟩ := C17_bind_types btMap (List.Perm.refl _) q
  have : ∃ k : Spec.BTy, Str.eqFold q k.name = true := by
    apply Classical.byContradiction
    intro hn
    refine h (c2.2 fun k => ?_)
    cases hk : Str.eqFold q k.name
    · rfl
    · exact absurd ⟨k, hk⟩ hn
  obtain ⟨k, hk⟩ := this
  have e : matchBT q = btConst k := (c1 k).2 hk
  rw [e, c3 k]
  unfold Str.eqFold at hk
  rw [eq_of_beq hk] at hq
  have : (Str.fold k.name).length = k.name.length := by cases k <;> decide
  omega

/-- **C141** for pairs: what is printed is not longer than what was read. -/
theorem C141_pair (x : Str) (bkw : List (Option BindKeyword)) (a : Attr.ABTV) (t : Str)
    (h : Attr.parseATBTV x bkw = .ok a) (ht : a.string = some t) : t.length ≤ x.length := by
  unfold Attr.parseATBTV at h
  cases e : Str.cut1 35 x with
  | none => rw [e] at h; cases h
  | some pq =>
    obtain ⟨p, q⟩ := pq
    rw [e] at h
    obtain ⟨rfl, -⟩ := Str.cut1_some e
    simp only at h
    split at h
    · cases h
    · rename_i hn
      have h1 : Attr.AttributeType.string (Attr.AT p) = p := by
        unfold Attr.AT at hn ⊢
        split
        · rfl
        · rename_i hn'; rw [if_neg hn'] at hn; exact absurd rfl hn
      split at h
      · rename_i hb
        injection h with h
        subst h
        simp only [Attr.userOrGroupAttr, Attr.Cell.set, List.foldl_cons, List.foldl_nil, Attr.set1, if_true, Attr.ABTV.string,
          Attr.Cell.string, Attr.slotString, if_neg hb, Option.some.injEq, h1] at ht
        subst ht
        have := bt_length hb
        simp only [List.length_append, List.length_cons]
        omega
      · injection h with h
        subst h
        simp only [Attr.userOrGroupAttr, Attr.Cell.set, List.foldl_cons, List.foldl_nil, Attr.set1, if_true, Attr.ABTV.string,
          Attr.Cell.string] at ht
        unfold Attr.AV at ht
        split at ht
        · simp only [Attr.slotString, h1] at ht
          split at ht <;> simp only [Option.some.injEq] at ht <;> subst ht <;> simp
        · cases ht

theorem chop_length (x : Str) : (DN.chopDNPfx x).length ≤ x.length := by
  unfold DN.chopDNPfx
  split <;> simp

/-- **C141** for names: printing adds at most the scheme. -/
theorem C141_name (x : Str) (kw : UInt8) (hx : x ≠ []) :
    (DN.BindDN.string (some (DN.newDN x kw))).length ≤ x.length + 8 ∧
    (DN.TargetDN.string (some (DN.newDN x kw))).length ≤ x.length + 8 := by
  have := chop_length x
  have hl : x.length ≠ 0 := by simpa using hx
  simp only [DN.BindDN.string, DN.TargetDN.string, DN.newDN, if_pos hl, DN.stringWith, List.length_append]
  have e : Levels.LocalScheme.length = 8 := by decide
  omega

example : b!"ldap:///cn=a" ≠ [] ∧ (DN.BindDN.string (some (DN.newDN b!"cn=a" BindUDN))).length = 12 := by decide +kernel

example : ∃ a, Attr.parseATBTV b!"manager#userdn" [] = .ok a ∧ a.string = some b!"manager#USERDN" := ⟨_, rfl, by decide +kernel⟩

theorem push_ats (eq : Str → Str → Bool) (l : List Attr.AttributeType) : ∀ es : List Attr.AttributeType,
    Attr.ATs.push eq ⟨es, []⟩ (l.map .at_) = ⟨es ++ l.filter (fun a => !Attr.AttributeType.isZero a), []⟩ := by
  induction l with
  | nil => intro es; simp [Attr.ATs.push]
  | cons a l ih =>
    intro es
    simp only [Attr.ATs.push, List.map_cons, List.foldl_cons] at ih ⊢
    have : Attr.ATs.push1 eq ⟨es, []⟩ (.at_ a) = ⟨es ++ [a].filter (fun a => !Attr.AttributeType.isZero a), []⟩ := by
      cases h : Attr.AttributeType.isZero a <;> simp [Attr.ATs.push1, Attr.castArg, Attr.pushPolicy, Attr.containsAT, h]
    rw [this, ih]
    simp only [List.append_assoc, List.filter_cons]
    split <;> simp

theorem attrs_length (eq : Str → Str → Bool) (raw : Str) :
    (Uri.attrsText (Uri.transfer eq (Uri.atbList eq raw) Uri.UAs)).length ≤ raw.length := by
  have e1 : Uri.atbList eq raw = ⟨((Str.split1 44 (Str.dropSpaces raw)).map Attr.AT).filter (fun a => !Attr.AttributeType.isZero a), []⟩ := by
    have := push_ats eq ((Str.split1 44 (Str.dropSpaces raw)).map Attr.AT) []
    rw [List.map_map] at this
    exact this
  have e2 : Uri.transfer eq (Uri.atbList eq raw) Uri.UAs = Uri.atbList eq raw := by
    rw [e1]
    have := push_ats eq (((Str.split1 44 (Str.dropSpaces raw)).map Attr.AT).filter (fun a => !Attr.AttributeType.isZero a)) []
    unfold Uri.transfer Uri.UAs
    rw [this]
    simp
  rw [e2, e1]
  have e3 : ∀ l : List Str, (((l.map Attr.AT).filter (fun a => !Attr.AttributeType.isZero a)).map Attr.AttributeType.string).Sublist l := by
    intro l
    induction l with
    | nil => simp
    | cons a l ih =>
      simp only [List.map_cons, List.filter_cons]
      split
      · rename_i hz
        have : Attr.AttributeType.string (Attr.AT a) = a := by
          unfold Attr.AT at hz ⊢
          split
          · rfl
          · rename_i hn; rw [if_neg hn] at hz; simp [Attr.AttributeType.isZero] at hz
        rw [List.map_cons, this]
        exact ih.cons_cons a
      · exact ih.cons a
  unfold Uri.attrsText
  simp only
  rw [join_total]
  have h1 : total 1 _ ≤ total 1 (Str.split1 44 (Str.dropSpaces raw)) := total_sublist (e3 _)
  rw [split1_total] at h1
  have h2 : (Str.dropSpaces raw).length ≤ raw.length := List.length_filter_le _ _
  exact Nat.le_trans h1 h2

/-- What the first two parts of an address leave behind. -/
theorem atb_length {eq : Str → Str → Bool} {r r' : Uri.Uri} {raw : Str} {bkw : List BindKeyword}
    (h : Uri.uriAssertATB eq r raw bkw = .ok r') (ha : r.attrs = Uri.UAs) (hz : r.avbt = Attr.ABTV.zero) :
    r'.dn = r.dn ∧ r'.scope = r.scope ∧ r'.filter = r.filter ∧ (Uri.attrsText r'.attrs).length ≤ raw.length ∧
    (r'.avbt.isZero = true ∨ ((r'.avbt.string).getD Levels.fmtPanic).length ≤ raw.length + 90) := by
  have e0 : (Uri.attrsText Uri.UAs).length = 0 := rfl
  unfold Uri.uriAssertATB at h
  split at h
  · injection h with h; subst h
    exact ⟨rfl, rfl, rfl, by rw [ha, e0]; exact Nat.zero_le _, .inl (by rw [hz]; rfl)⟩
  · split at h
    · split at h
      · cases h
      · rename_i abv hp
        injection h with h; subst h
        refine ⟨rfl, rfl, rfl, by simp only [Uri.Uri.set1, ha, e0]; exact Nat.zero_le _, .inr ?_⟩
        simp only [Uri.Uri.set1]
        cases e : abv.string with
        | none => 
          have : Levels.fmtPanic.length ≤ 90 := by decide +kernel
          simp only [Option.getD_none]; omega
        | some t => have := C141_pair _ _ _ _ hp e; simp only [Option.getD_some]; omega
    · injection h with h; subst h
      refine ⟨rfl, rfl, rfl, ?_, .inl (by simp only [Uri.Uri.set1, hz]; rfl)⟩
      simp only [Uri.Uri.set1, ha]
      exact attrs_length eq raw

theorem uri_text (u : Uri.Uri) (d a f : Nat) (hd : (DN.BindDN.string u.dn).length ≤ d + 33) (ha : (Uri.attrsText u.attrs).length ≤ a)
    (hb : u.avbt.isZero = true ∨ ((u.avbt.string).getD Levels.fmtPanic).length ≤ a + 90)
    (hf : (Filter.SearchFilter.string u.filter).length ≤ f) : u.string.length ≤ d + a + f + 130 := by
  have hs : u.scope.standard.length ≤ 4 := by
    unfold SearchScope.standard
    split
    · simp
    · split <;> simp
  unfold Uri.Uri.string
  split
  · have : Uri.badURI.length ≤ 130 := by decide
    omega
  split
  · simp only [List.length_append, List.length_cons, List.length_nil]; omega
  split
  · rename_i hz
    rcases hb with hb | hb
    · rw [hb] at hz; cases hz
    · simp only [List.length_append, List.length_cons, List.length_nil]; omega
  · simp only [List.length_append, List.length_cons, List.length_nil]; omega

/-- **C141** for addresses: printing adds a bounded number of bytes. -/
theorem C141_address (eq : Str → Str → Bool) (x : Str) (bkw : List BindKeyword) (u : Uri.Uri)
    (h : Uri.parseLDAPURI eq x bkw = .ok u) : u.string.length ≤ x.length + 130 := by
  unfold Uri.parseLDAPURI at h
  split at h
  · cases h
  have ht : total 1 (Str.split1 63 (x.drop Levels.LocalScheme.length)) ≤ x.length := by
    rw [split1_total, List.length_drop]; omega
  have dn : ∀ d : Str, (DN.BindDN.string (DN.UDN d)).length ≤ d.length + 33 := by
    intro d
    by_cases hd : d = []
    · subst hd; decide
    · have := (C141_name d BindUDN hd).1
      unfold DN.UDN; omega
  have sc : ∀ (r : Uri.Uri) v, (Uri.setScope eq r v).dn = r.dn ∧ (Uri.setScope eq r v).attrs = r.attrs ∧
      (Uri.setScope eq r v).avbt = r.avbt ∧ (Uri.setScope eq r v).filter = r.filter := by
    intro r v
    unfold Uri.setScope
    split <;> exact ⟨rfl, rfl, rfl, rfl⟩
  generalize Str.split1 63 (x.drop Levels.LocalScheme.length) = vals at h ht
  match vals, h, ht with
  | [], h, _ =>
    injection h with h; subst h
    have : Uri.newURI.string.length ≤ 130 := by decide +kernel
    omega
  | [d], h, ht =>
    injection h with h; subst h
    have := uri_text (Uri.newURI.set1 eq (.dn (DN.UDN d))) d.length 0 0 (dn d) (Nat.le_refl _) (.inl rfl) (Nat.le_refl _)
    simp only [total] at ht
    omega
  | [d, a], h, ht =>
    obtain ⟨e1, e2, e3, h4, h5⟩ := atb_length (r := Uri.newURI.set1 eq (.dn (DN.UDN d))) h rfl rfl
    have := uri_text u d.length a.length 0 (by rw [e1]; exact dn d) h4 h5 (by rw [e3]; exact Nat.le_refl _)
    simp only [total] at ht
    omega
  | [d, a, s], h, ht =>
    simp only [Uri.assertURIComponents] at h
    cases e : Uri.uriAssertATB eq (Uri.newURI.set1 eq (.dn (DN.UDN d))) a bkw with
    | error z => rw [e] at h; cases h
    | ok r =>
      rw [e] at h
      injection h with h; subst h
      obtain ⟨e1, e2, e3, h4, h5⟩ := atb_length e rfl rfl
      obtain ⟨s1, s2, s3, s4⟩ := sc r s
      have := uri_text (Uri.setScope eq r s) d.length a.length 0 (by rw [s1, e1]; exact dn d) (by rw [s2]; exact h4) (by rw [s3]; exact h5)
        (by rw [s4, e3]; exact Nat.le_refl _)
      simp only [total] at ht
      dsimp only
      omega
  | d :: a :: s :: f :: l, h, ht =>
    simp only [Uri.assertURIComponents] at h
    cases e : Uri.uriAssertATB eq (Uri.newURI.set1 eq (.dn (DN.UDN d))) a bkw with
    | error z => rw [e] at h; cases h
    | ok r =>
      rw [e] at h
      injection h with h; subst h
      obtain ⟨e1, e2, e3, h4, h5⟩ := atb_length e rfl rfl
      obtain ⟨s1, s2, s3, s4⟩ := sc r s
      have := uri_text ((Uri.setScope eq r s).set1 eq (.filter (Filter.mkFilter f))) d.length a.length f.length
        (by simp only [Uri.Uri.set1]; rw [s1, e1]; exact dn d) (by simp only [Uri.Uri.set1]; rw [s2]; exact h4)
        (by simp only [Uri.Uri.set1]; rw [s3]; exact h5) (Nat.le_refl _)
      have hl := total_cons 1 f l
      simp only [total] at ht
      dsimp only
      omega

example : ∃ u, Uri.parseLDAPURI EqualFold.ref.eq b!"ldap:///cn=a?cn,sn?sub?(cn=b)" [] = .ok u ∧ u.string = b!"ldap:///cn=a?cn,sn?sub?(cn=b)" :=
  ⟨_, rfl, by decide +kernel⟩

/-! ## Inheritance -/

theorem levels_length (S : Shifty 16) (v : BitVec 16) : (Levels.levelsString S v).length ≤ 21 := by
  have all : total 1 ((((List.range Levels.levelBitIter).map fun i => BitVec.twoPow 16 i)).map Levels.levelString) ≤ 21 := by
    decide +kernel
  have sub : (Levels.scan S v).Sublist ((List.range Levels.levelBitIter).map fun i => BitVec.twoPow 16 i) := by
    unfold Levels.scan
    exact List.filter_sublist
  have := total_sublist (n := 1) (sub.map Levels.levelString)
  unfold Levels.levelsString
  split
  · rw [join_total]
    have : total 1 ((Levels.scan S v).map Levels.levelString) ≤ 21 := by omega
    exact this
  · decide

/-- **C141** for inheritance: printing adds a bounded number of bytes. -/
theorem C141_inheritance (S : Shifty 16) (s : Str) (I : Levels.Inheritance) (h : Levels.parseInheritance s = .ok I) :
    (Levels.string S I).length ≤ s.length + 111 := by
  obtain ⟨pre, lv, rest, A, rfl, hp, -, -, hA, rfl⟩ := (Levels.parse_ok_iff s I).1 h
  have hl := levels_length S (Levels.word lv)
  have ha : ((Attr.ABTV.string A).getD Levels.fmtPanic).length ≤ rest.length + 90 := by
    cases e : Attr.ABTV.string A with
    | none => 
      have : Levels.fmtPanic.length ≤ 90 := by decide +kernel
      simp only [Option.getD_none]; omega
    | some t => have := C141_pair _ _ _ _ hA e; simp only [Option.getD_some]; omega
  have hpre : pre.length = 7 := by have := congrArg List.length hp; simpa using this
  simp only [Levels.string]
  split
  · have : Levels.badInheritance.length ≤ 30 := by decide
    simp only [List.length_append]; omega
  · simp only [List.length_append, List.length_cons, List.length_nil]; omega

example : ∃ I, Levels.parseInheritance b!"Parent[0, 3,x].cn#userdn" = .ok I ∧
    Levels.string (.anyRef 16) I = b!"parent[0,3].cn#USERDN" := ⟨_, rfl, by decide +kernel⟩

end Verif.Growth
