import Verif.Props.Values

/-!
# C98: what a value of a target rule prints is read as this value
-/

namespace Verif.Back
open Verif Verif.Spec Verif.Bind Verif.Rules Verif.Attr Verif.Misc Verif.DNList

theorem upToGap_some {α : Type} (l : List α) : upToGap (l.map some) = l := by
  induction l with
  | nil => rfl
  | cons a l ih => simp only [List.map_cons, upToGap, ih]

theorem distinct_of_nodup {l : List Str} (h : l.Nodup) : Distinct (fun a b => a == b) l := by
  intro i j a b hij ha hb
  simp only [beq_eq_false_iff_ne]
  rintro rfl
  have := (List.getElem?_inj (by
    have := List.getElem?_eq_some_iff.1 ha
    exact this.1) h).1 (ha.trans hb.symm)
  omega

theorem sound_valueT {E : EqualFold} {d : Oid.DotReader} {k : TKw} {x : TExpr} (h : SoundT E d k x)
    (q : TRule) (style : Int) (hq : RawRule q k style x.texts) : ValueRead E d q x := by
  cases h with
  | scope s =>
    rw [C80_value E d q _ style _ hq]
    exact .scope (t := SearchScope.string (SearchScope.const s)) ((inside_iff _ _).2 (by cases s <;> decide +kernel)) (by cases s <;> decide +kernel)
  | filter h hs => exact (C80_value E d q _ style _ hq _).2 (.filter hs h)
  | @attrs t n h hs =>
    have e : TExpr.texts (.attrs ⟨List.replicate (n + 1) (some t), []⟩) = t :: List.replicate n t := by
      simp [TExpr.texts, List.replicate_succ, AttributeType.string]
    rw [e] at hq
    rw [C80_value E d q _ style _ hq]
    have := TargetValue.attrs (E := E) (d := d) (vs := List.replicate n t) hs h
    rw [List.length_replicate] at this
    exact this
  | @oids k ts hk hne hd h =>
    have e : TExpr.texts (.oids ⟨tkwConst k, ts.map fun t => .oid (some ⟨tkwConst k, some t⟩)⟩) = ts := by
      simp only [TExpr.texts, List.map_map]
      conv => rhs; rw [← List.map_id ts]
      exact List.map_congr_left fun t _ => by cases k <;> first | rfl | cases hk
    rw [e] at hq
    rw [C80_value E d q _ style _ hq]
    have hr : ts.map d.read = ts.map some := List.map_congr_left h
    have hu : upToGap (ts.map d.read) = ts := by rw [hr, upToGap_some]
    have := TargetValue.oids (E := E) (d := d) hk (by rw [hu]; exact hne)
    rw [hu, firsts_distinct (distinct_of_nodup hd)] at this
    exact this
  | @names k ns hk hne h hd =>
    have e : TExpr.texts (.dns ⟨tkwConst k, ns.map fun n => some ⟨tkwConst k, some n⟩⟩) = ns.map (scheme ++ ·) := by
      simp only [TExpr.texts, List.map_map]
      exact List.map_congr_left fun t _ => rfl
    rw [e] at hq
    rw [C80_value E d q _ style _ hq]
    have hm : (ns.map (scheme ++ ·)).map (List.drop 8) = ns := by
      rw [List.map_map]
      conv => rhs; rw [← List.map_id ns]
      exact List.map_congr_left fun t _ => rfl
    have := TargetValue.names (E := E) (d := d) (vs := ns.map (scheme ++ ·)) hk (by simpa using hne) (List.drop 8) (by
      intro v hv
      obtain ⟨n, hn, rfl⟩ := List.mem_map.1 hv
      obtain ⟨h1, h2, h3⟩ := h n hn
      exact ⟨_, n, h3, Or.inl rfl, h1, Or.inr ⟨rfl, h2⟩⟩)
    rw [hm, firsts_distinct hd] at this
    exact this
  | @ops ops h h1 =>
    rw [valueRead_iff hq]
    have e : TExpr.texts (.afos ⟨44, ops.map fun o => Filter.opWith o.1 o.2⟩) = [Filter.opsText 44 ops] := by
      rw [TExpr.texts, Filter.string_ops h]
    rw [e]
    have := Filter.C42_rule_partial (Or.inl rfl) h (fun _ o ho => (h.2.2 o ho).2.2.2.2) h1
    rw [readTarget, if_neg (by decide), if_pos (by decide), this]; rfl

/-- **C98** as stated, for target rules: the texts of a value that was read are read again, and what
is read has the same texts. -/
def ClaimBackT : Prop :=
  ∀ (E : EqualFold) (d : Oid.DotReader) (r : TRule) (k : TKw) (style : Int) (vs : List Str) (x : TExpr),
    RawRule r k style vs → ValueRead E d r x → ∀ (q : TRule) (style' : Int), RawRule q k style' x.texts →
      ∃ y, ValueRead E d q y ∧ y.texts = x.texts

/-- A target filter as the parser returns it. -/
def rawFilter (v : Str) : TRule := ⟨⟨true, b!"targetfilter", Eq'⟩, .raw 0 [v], false, false⟩

theorem raw_filter (v : Str) : RawRule (rawFilter v) .targetfilter 0 [v] := ⟨⟨rfl, by show Str.eqFold b!"targetfilter" b!"targetfilter" = true; decide⟩, rfl⟩

/-- **C98** fails for target rules too: the letter é in a filter gets longer with every reading. -/
theorem C98_target_counterexample : ¬ ClaimBackT := by
  intro hc
  have h1 : ValueRead .ref Oid.plainReader (rawFilter (b!"(cn=" ++ [0xC3, 0xA9] ++ b!")"))
      (.filter (some (b!"(cn=" ++ [0xC3, 0x83, 0xC2, 0xA9] ++ b!")"))) :=
    (C80_value _ _ _ _ _ _ (raw_filter _) _).2 (.filter ((inside_iff _ _).2 (by decide +kernel)) (by decide))
  obtain ⟨y, hy, e⟩ := hc _ _ _ _ _ _ _ (raw_filter _) h1 (rawFilter (b!"(cn=" ++ [0xC3, 0x83, 0xC2, 0xA9] ++ b!")")) 0
    (raw_filter _)
  rw [C80_value _ _ _ _ _ _ (raw_filter _)] at hy
  cases hy with
  | @filter _ t h _ =>
    rw [inside_iff] at h
    rw [← h] at e
    revert e; decide +kernel
  | oids hk | names hk => cases hk

/-- **C98**, for target rules and sound values: the texts of the value are read as this value and as
no other.  Missing: values that are not sound, see `C98_target_counterexample`; among them are lists
of different attributes, see C44. -/
theorem C98_target_partial (E : EqualFold) (d : Oid.DotReader) (k : TKw) (x : TExpr) (h : SoundT E d k x)
    (q : TRule) (style : Int) (hq : RawRule q k style x.texts) (y : TExpr) : ValueRead E d q y ↔ y = x := by
  have hx := sound_valueT h q style hq
  exact ⟨fun hy => hy.2.symm.trans hx.2, fun e => e ▸ hx⟩

example (E : EqualFold) : SoundT E Oid.plainReader .targetfilter (.filter (some b!"(cn=a b)")) :=
  .filter (by decide) ((inside_iff _ _).2 (by decide +kernel))
example (E : EqualFold) : SoundT E Oid.plainReader .targetcontrol (.oids ⟨tkwConst .targetcontrol,
    [b!"1.2.3", b!"1.3"].map fun t => .oid (some ⟨tkwConst .targetcontrol, some t⟩)⟩) :=
  .oids rfl (by simp) (by decide) (by decide +kernel)

end Verif.Back
