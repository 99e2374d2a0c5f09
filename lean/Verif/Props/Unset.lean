import Verif.Model.Unset
import Verif.Props.Valid
import Verif.Props.PB

/-!
# `IsZero` (C119)
-/

namespace Verif.Unset
open Verif Verif.Spec Verif.Misc Verif.Valid

/-- A value whose `IsZero` is `zero` and whose text is `t`, of a type where the text of a
declared variable is `u`: `IsZero` is true exactly if the text is that of the variable. -/
def ToldBy {T : Type} (zero : Bool) (t u : T) : Prop := zero = true ↔ t = u

/-! ## Where it fails -/

/-- The claim for pairs that were declared and set. -/
def PairsTold : Prop :=
  ∀ (calls : List (List Attr.Arg)),
    ToldBy (calls.foldl Attr.ABTV.set Attr.ABTV.zero).isZero
      (calls.foldl Attr.ABTV.set Attr.ABTV.zero).string Attr.ABTV.zero.string

/-- The claim for attribute filters. -/
def AttributeFiltersTold : Prop :=
  ∀ f : Filter.AttributeFilter, ToldBy f.isZero f.string (Filter.AttributeFilter.string none)

/-- The claim for host names. -/
def HostsTold : Prop :=
  ∀ r, Net.Reachable r → ToldBy (host r) r.string (Net.FQDN.string none)

/-- The claim for days. -/
def DaysTold : Prop :=
  ∀ (S : Shifty 8) (r : Time.DayOfWeek), ToldBy (Time.isZero r) (Time.string S r) (Time.string S none)

/-- The claim for permission bind rules. -/
def PermissionBindRulesTold : Prop :=
  ∀ (w : PB.World) (r : PB.PBRule), ToldBy (PB.isZero r) (PB.string w r) (PB.string w none)

/-- **C119** fails.  A declared pair is still reported unset after `Set` gave it parts, which its
text shows.  An attribute filter without its filter, a host name of one label, days without a
day and a permission bind rule without its bind rule are reported set, and have the text of an
unset value. -/
theorem C119_counterexample : ¬ PairsTold ∧ ¬ AttributeFiltersTold ∧ ¬ HostsTold ∧ ¬ DaysTold ∧
    ¬ PermissionBindRulesTold := by
  refine ⟨fun h => ?_, fun h => ?_, fun h => ?_, fun h => ?_, fun h => ?_⟩
  · have := (h [[.str b!"cn", .str b!"x"]]).1 (by decide)
    revert this
    decide +kernel
  · have := (h (Filter.AF [.at_ (some b!"cn")])).2 (by decide +kernel)
    revert this
    decide
  · have := (h (Net.DNS [b!"com"]) (.dns _)).2 (by decide +kernel)
    revert this
    decide +kernel
  · have := (h (Shifty.anyRef 8) (Time.DoW [])).2 (by decide +kernel)
    revert this
    decide
  · have := (h PB.plainWorld (some ⟨some ⟨true, 0#16⟩, none⟩)).2 rfl
    revert this
    decide

/-! ## Single values -/

theorem factors : ∀ n : Fin 256, Str.ofNat (n.1 + 1) ≠ b!"0" := by decide +kernel

/-- **C119** for attribute types, names, filters, object identifiers, URIs, addresses, times of
day, strength factors, permissions, instructions and inheritances: `IsZero` is true exactly if the
text is that of a declared variable. -/
theorem C119_values (S : Shifty 16) (R : Oid.DotReader) (w : PB.World) :
    (∀ x, ToldBy (Attr.AttributeType.isZero (Attr.AT x)) (Attr.AttributeType.string (Attr.AT x))
      (Attr.AttributeType.string none)) ∧
    (∀ d : DN.BindDN, ToldBy (DN.isZero d) (DN.BindDN.string d) (DN.BindDN.string none)) ∧
    (∀ d : DN.TargetDN, ToldBy (DN.isZero d) (DN.TargetDN.string d) (DN.TargetDN.string none)) ∧
    (∀ f, ToldBy (Filter.SearchFilter.isZero f) (Filter.SearchFilter.string f) (Filter.SearchFilter.string none)) ∧
    (∀ k x, ToldBy (Oid.isZero (some (Oid.newObjectID R.read k x).1))
      (Oid.string (some (Oid.newObjectID R.read k x).1)) (Oid.string none)) ∧
    (∀ u, ToldBy (uri u) (Uri.LDAPURI.string u) (Uri.LDAPURI.string none)) ∧
    (∀ calls : List (List Str), ToldBy (addresses (calls.foldl Net.IPAddr.set none))
      (Net.IPAddr.string (calls.foldl Net.IPAddr.set none)) (Net.IPAddr.string none)) ∧
    (∀ t, ToldBy (Time.TimeOfDay.isZero t) (Time.TimeOfDay.string t) (Time.TimeOfDay.string none)) ∧
    (∀ f, ToldBy (Sec.isZero f) (Sec.string f) (Sec.string none)) ∧
    (∀ p, ToldBy (Rights.isZero p) (Rights.string S p) (Rights.string S none)) ∧
    (∀ i, ToldBy (instruction i) (Ins.string w i) (Ins.string w none)) ∧
    ∀ i, ToldBy (Levels.isZero i) (Levels.string S i) (Levels.string S none) := by
  have V := C109_values S
  have bare : ∀ {t u : Str}, Telling t → ¬ Telling u → t ≠ u := fun h h' e => h' (e ▸ h)
  refine ⟨fun x => ?_, fun d => ?_, fun d => ?_, fun f => ?_, fun k x => ?_, fun u => ?_, fun calls => ?_,
    fun t => ?_, fun f => ?_, fun p => ?_, fun i => ?_, fun i => ?_⟩
  · have h := V.1 x
    cases hx : Attr.AT x with
    | none => exact ⟨fun _ => rfl, fun _ => rfl⟩
    | some y =>
      rw [hx] at h
      cases y with
      | nil =>
        exfalso
        unfold Attr.AT at hx
        split at hx
        · rename_i h1
          cases hx
          revert h1
          decide
        · cases hx
      | cons c s =>
        refine ⟨fun h' => (by cases h'), fun h' => ?_⟩
        exact absurd h' (bare (h.1 rfl) (mark _))
  · have h := V.2.1 d
    cases d with
    | none => exact ⟨fun _ => rfl, fun _ => rfl⟩
    | some d =>
      obtain ⟨kw, t⟩ := d
      cases t with
      | none => exact ⟨fun _ => rfl, fun _ => rfl⟩
      | some t => exact ⟨fun h' => (by cases h'), fun h' => absurd h' (bare (h.1 rfl) (mark _))⟩
  · have h := V.2.2.1 d
    cases d with
    | none => exact ⟨fun _ => rfl, fun _ => rfl⟩
    | some d =>
      obtain ⟨kw, t⟩ := d
      cases t with
      | none => exact ⟨fun _ => rfl, fun _ => rfl⟩
      | some t => exact ⟨fun h' => (by cases h'), fun h' => absurd h' (bare (h.1 rfl) (mark _))⟩
  · cases f with
    | none => exact ⟨fun _ => rfl, fun _ => rfl⟩
    | some s => cases s <;> simp [ToldBy, Filter.SearchFilter.isZero, Filter.SearchFilter.string]
  · have h := C109_identifiers R k x
    generalize (Oid.newObjectID R.read k x).1 = o at h ⊢
    unfold Valid.oid at h
    unfold ToldBy
    by_cases hz : Oid.isZero (some o) = true
    · refine ⟨fun _ => ?_, fun _ => hz⟩
      unfold Oid.string
      rw [if_pos hz]
      rfl
    · rw [if_neg hz] at h
      exact ⟨fun h' => absurd h' hz, fun h' => absurd h' (bare (h.1 rfl) (mark _))⟩
  · have h := C109_uris u
    cases u with
    | none => exact ⟨fun _ => rfl, fun _ => rfl⟩
    | some u =>
      refine ⟨fun h' => (by cases h'), fun h' => ?_⟩
      exfalso
      have h' : Uri.Uri.string u = [] := h'
      by_cases hv : Uri.LDAPURI.valid (some u) = true
      · exact absurd h' (bare (h.1 hv) nothing)
      · unfold Uri.Uri.string at h'
        have hv : ¬ u.valid = true := hv
        rw [if_pos (by simpa using hv)] at h'
        cases h'
  · have h := (C109_hosts calls none .null).1
    cases hq : calls.foldl Net.IPAddr.set none with
    | none => exact ⟨fun _ => rfl, fun _ => rfl⟩
    | some l =>
      rw [hq] at h
      refine ⟨fun h' => (by cases h'), fun h' => ?_⟩
      cases l with
      | nil => cases h'
      | cons a l => exact absurd h' (bare (h.1 rfl) (mark _))
  · have h := V.2.2.2.2.2.1 t
    cases t with
    | none => exact ⟨fun _ => rfl, fun _ => rfl⟩
    | some b => exact ⟨fun h' => (by cases h'), fun h' => absurd h' (bare (h.1 rfl) (mark _))⟩
  · cases f with
    | none => exact ⟨fun _ => rfl, fun _ => rfl⟩
    | some b =>
      cases b with
      | none => exact ⟨fun _ => rfl, fun _ => rfl⟩
      | some b =>
        refine ⟨fun h' => (by cases h'), fun h' => ?_⟩
        exact absurd h' (factors ⟨b.toNat, b.toNat_lt⟩)
  · have h := V.2.2.2.2.2.2.2 p
    cases p with
    | none => exact ⟨fun _ => rfl, fun _ => rfl⟩
    | some c => exact ⟨fun h' => (by cases h'), fun h' => absurd h' (bare (h.1 rfl) (mark _))⟩
  · cases i with
    | none => exact ⟨fun _ => rfl, fun _ => rfl⟩
    | some b =>
      refine ⟨fun h' => (by cases h'), fun h' => ?_⟩
      have h1 : (Ins.string w (some b)).getLast? = some 41 := by
        unfold Ins.string
        exact List.getLast?_concat
      rw [h'] at h1
      have h1 : Ins.badACI.getLast? = some 41 := h1
      exact absurd h1 (by decide)
  · cases i with
    | none => exact ⟨fun _ => rfl, fun _ => rfl⟩
    | some i =>
      unfold ToldBy Levels.isZero Levels.string
      simp only
      by_cases hz : i.abtv.isZero = true
      · simp [hz]
      · refine ⟨fun h' => absurd h' hz, fun h' => ?_⟩
        rw [if_neg hz] at h'
        cases h'

example : Sec.isZero (Sec.SSF [.int 128]) = false ∧ Sec.isZero none = true := by decide

/-! ## What holds where it fails -/

/-- **C119** for pairs: those made at once are reported unset exactly if their text is that of a
declared pair.  A declared pair is reported unset whatever was set, and no longer has the text of
an unset pair once something was.  Missing: that it is then reported set. -/
theorem C119_pairs_partial :
    (∀ k x, ToldBy (Attr.mkABTV k x).isZero (Attr.mkABTV k x).string Attr.ABTV.zero.string) ∧
    ∀ calls : List (List Attr.Arg),
      (calls.foldl Attr.ABTV.set Attr.ABTV.zero).isZero = true ∧
      ((calls.foldl Attr.ABTV.set Attr.ABTV.zero).string = Attr.ABTV.zero.string ↔ calls = []) := by
  have text : ∀ c : Attr.Cell, c.string ≠ Attr.ABTV.zero.string := by
    have hash : ∀ a b : Str, a ++ 35 :: b ≠ Attr.badAV := fun a b e => by
      have : (35 : Byte) ∈ Attr.badAV := by rw [← e]; simp
      revert this
      decide
    intro c h
    have h : c.string = some Attr.badAV := h
    unfold Attr.Cell.string at h
    split at h
    · cases h
    · unfold Attr.slotString at h
      split at h
      · cases h
      · split at h
        · cases h
        · exact hash _ _ (Option.some.inj h)
      · cases h
      · split at h
        · cases h
        · exact hash _ _ (Option.some.inj h)
  refine ⟨fun k x => ?_, fun calls => ?_⟩
  · unfold Attr.mkABTV
    split
    · rename_i hk
      have hk0 : (k == 0) = false := by rcases hk with rfl | rfl <;> decide
      refine ⟨fun h => ?_, fun h => absurd h (text _)⟩
      have h : (k == 0) = true := h
      rw [hk0] at h
      cases h
    · exact ⟨fun _ => rfl, fun _ => rfl⟩
  · have key : ∀ (calls : List (List Attr.Arg)) (p : Attr.ABTV), p.kw = 0 →
        (calls.foldl Attr.ABTV.set p).kw = 0 ∧
        (p.cell.isSome = true ∨ calls ≠ [] → (calls.foldl Attr.ABTV.set p).cell.isSome = true) := by
      intro calls
      induction calls with
      | nil => exact fun p hp => ⟨hp, fun h => h.elim id (fun h => absurd rfl h)⟩
      | cons x calls ih =>
        intro p hp
        have hs : (p.set x).kw = 0 ∧ (p.set x).cell.isSome = true := by
          unfold Attr.ABTV.set
          split
          · exact ⟨hp, rfl⟩
          · exact ⟨hp, rfl⟩
        obtain ⟨h1, h2⟩ := ih (p.set x) hs.1
        exact ⟨h1, fun _ => h2 (.inl hs.2)⟩
    obtain ⟨h1, h2⟩ := key calls Attr.ABTV.zero rfl
    refine ⟨?_, ?_, ?_⟩
    · unfold Attr.ABTV.isZero
      split
      · rfl
      · simp [h1]
    · intro h
      by_cases hc : calls = []
      · exact hc
      · have := h2 (.inr hc)
        unfold Attr.ABTV.string at h
        cases hq : (calls.foldl Attr.ABTV.set Attr.ABTV.zero).cell with
        | none => rw [hq] at this; cases this
        | some c =>
          rw [hq] at h
          exact absurd h (text c)
    · rintro rfl
      rfl

example : ([[Attr.Arg.str b!"cn", .str b!"x"]].foldl Attr.ABTV.set Attr.ABTV.zero).string = some b!"cn#x" := by
  decide +kernel

/-- **C119** for attribute filters, with their parts: one that is reported unset has the text of an
unset filter; one that has both parts or none is reported unset exactly then; of the others the
text is empty too.  Missing: that the others are reported unset. -/
theorem C119_filters_partial (a : Attr.AttributeType) (f : Filter.SearchFilter) :
    let r : Filter.AttributeFilter := some ⟨a, f⟩
    (r.isZero = true ↔ a.getD [] = [] ∧ f.getD [] = []) ∧
    (r.string = Filter.AttributeFilter.string none ↔ a.getD [] = [] ∨ f.getD [] = []) ∧
    ((a.getD [] = [] ↔ f.getD [] = []) → ToldBy r.isZero r.string (Filter.AttributeFilter.string none)) := by
  intro r
  have h1 : r.isZero = true ↔ a.getD [] = [] ∧ f.getD [] = [] := by
    rcases a with _ | _ | ⟨c, a⟩ <;> rcases f with _ | _ | ⟨d, f⟩ <;>
      simp [r, Filter.AttributeFilter.isZero, Filter.SearchFilter.isZero, Attr.AttributeType.isZero]
  have h2 : r.string = Filter.AttributeFilter.string none ↔ a.getD [] = [] ∨ f.getD [] = [] := by
    rcases a with _ | _ | ⟨c, a⟩ <;> rcases f with _ | _ | ⟨d, f⟩ <;>
      simp [r, Filter.AttributeFilter.string, Filter.AttributeFilter.valid, Filter.SearchFilter.isZero,
        Attr.AttributeType.isZero]
  refine ⟨h1, h2, fun h => ?_⟩
  unfold ToldBy
  rw [h1, h2]
  exact ⟨fun h' => .inl h'.1, fun h' => h'.elim (fun x => ⟨x, h.1 x⟩) fun x => ⟨h.2 x, x⟩⟩

example : (Filter.AF [.at_ (some b!"cn")]).isZero = false ∧ (Filter.AF [.at_ (some b!"cn")]).string = [] := by
  decide +kernel

/-- **C119** for host names: a declared name is reported unset exactly if nothing was called; a name
that was started is reported set, and has the text of an unset name exactly if it has fewer than two
or more than fifteen labels.  Missing: that it is then reported unset. -/
theorem C119_hosts_partial :
    (∀ calls : List (List Str), host (calls.foldl Net.FQDN.set none) = true ↔ calls = []) ∧
    ∀ ls, Net.Reachable (some ls) → host (some ls) = false ∧
      (Net.FQDN.string (some ls) = Net.FQDN.string none ↔ ¬ (2 ≤ ls.length ∧ ls.length ≤ 15)) := by
  constructor
  · intro calls
    have key : ∀ (calls : List (List Str)) (l : List Str), host (calls.foldl Net.FQDN.set (some l)) = false := by
      intro calls
      induction calls with
      | nil => exact fun l => rfl
      | cons x calls ih => exact fun l => ih _
    cases calls with
    | nil => exact ⟨fun _ => rfl, fun _ => rfl⟩
    | cons x calls =>
      refine ⟨fun h => ?_, fun h => by cases h⟩
      have := key calls (Net.labelsSet [] x)
      rw [List.foldl_cons] at h
      exact absurd (this.symm.trans h) (by decide)
  · intro ls hr
    refine ⟨rfl, ?_⟩
    have h := (C109_hosts [] (some ls) hr).2
    have hv := Net.C25_partial.1 ls
    have hn : ¬ Telling (Net.FQDN.string none) := mark _
    constructor
    · intro e hc
      exact hn (e ▸ h.1 (hv.2 hc))
    · intro hc
      have : ¬ Net.FQDN.valid (some ls) = true := fun h' => hc (hv.1 h')
      unfold Net.FQDN.string
      rw [if_pos (by simpa using this)]
      rfl

example : Net.Reachable (some [b!"com"]) ∧ Net.FQDN.string (some [b!"com"]) = b!"<invalid_fqdn_or_label>" :=
  ⟨by have := Net.Reachable.dns [b!"com"]; exact this, by decide +kernel⟩

theorem words : ∀ n : Fin 256, (Time.wordText (BitVec.ofNat 8 n.1) = Time.badDoW ↔
    BitVec.ofNat 8 n.1 = 0#8 ∨ BitVec.ofNat 8 n.1 = 1#8) := by
  decide +kernel

/-- **C119** for days: a declared set of days is reported unset exactly if `Shift` was never called;
one that was started has the text of an unset one exactly if it holds no day (the lowest bit is
none).  Missing: that it is then reported unset. -/
theorem C119_days_partial (S : Shifty 8) :
    (∀ h : List Time.Call, Time.isZero (h.foldl Time.Call.run none) = true ↔ ∀ x, Time.Call.shift x ∉ h) ∧
    ∀ v : BitVec 8, Time.isZero (some v) = false ∧
      (Time.string S (some v) = Time.string S none ↔ v = 0#8 ∨ v = 1#8) := by
  constructor
  · have key : ∀ (h : List Time.Call) (v : BitVec 8), (h.foldl Time.Call.run (some v)).isNone = false := by
      intro h
      induction h with
      | nil => exact fun v => rfl
      | cons c h ih => cases c <;> exact fun v => ih _
    intro h
    induction h with
    | nil => simp [Time.isZero]
    | cons c h ih =>
      cases c with
      | shift x =>
        refine ⟨fun h' => ?_, fun h' => absurd (List.mem_cons_self ..) (h' x)⟩
        have := key h (x.foldl Time.shift1 ((none : Time.DayOfWeek).getD 0#8))
        exact absurd (this.symm.trans h') (by decide)
      | unshift x =>
        rw [List.foldl_cons]
        show Time.isZero (h.foldl Time.Call.run none) = true ↔ _
        rw [ih]
        simp
  · intro v
    refine ⟨rfl, ?_⟩
    rw [Time.string_some]
    exact Time.word_cases (fun v => Time.wordText v = Time.badDoW ↔ v = 0#8 ∨ v = 1#8) words v

example : Time.isZero ([Time.Call.unshift [.day Time.Mon]].foldl Time.Call.run none) = true ∧
    Time.isZero ([Time.Call.shift [], .unshift [.day Time.Mon]].foldl Time.Call.run none) = false := by decide

/-- **C119** for permission bind rules: one that was only declared is reported unset, and one with storage
exactly if both parts are missing; the text is
that of an unset one exactly if one of them is.  Missing: that a rule with one part is reported
unset. -/
theorem C119_permission_bind_rules_partial (w : PB.World) (p : Rights.Permission) (b : Option Bind.BCtx) :
    PB.isZero none = true ∧
    (PB.isZero (some ⟨p, b⟩) = true ↔ p = none ∧ b = none) ∧
    (PB.string w (some ⟨p, b⟩) = PB.string w none ↔ p = none ∨ b = none) ∧
    ((p = none ↔ b = none) → ToldBy (PB.isZero (some ⟨p, b⟩)) (PB.string w (some ⟨p, b⟩)) (PB.string w none)) := by
  have h1 : PB.isZero (some ⟨p, b⟩) = true ↔ p = none ∧ b = none := by
    cases p <;> cases b <;> simp [PB.isZero, Rights.isZero]
  have h2 : PB.string w (some ⟨p, b⟩) = PB.string w none ↔ p = none ∨ b = none := by
    cases p with
    | none => cases b <;> exact ⟨fun _ => .inl rfl, fun _ => rfl⟩
    | some c =>
      cases b with
      | none => exact ⟨fun _ => .inr rfl, fun _ => rfl⟩
      | some b =>
        refine ⟨fun h => ?_, fun h => by rcases h with h | h <;> cases h⟩
        exfalso
        have ht : Telling (PB.string w (some ⟨some c, some b⟩)) := by
          show Telling (PB.pbText w (some c) b)
          unfold PB.pbText
          rw [List.append_assoc, List.append_assoc]
          exact telling_app _ (((C109_values w.S).2.2.2.2.2.2.2 (some c)).1 rfl)
        rw [h] at ht
        exact mark _ ht
  refine ⟨rfl, h1, h2, fun h => ?_⟩
  unfold ToldBy
  rw [h1, h2]
  exact ⟨fun h' => .inl h'.1, fun h' => h'.elim (fun x => ⟨x, h.1 x⟩) fun x => ⟨h.2 x, x⟩⟩

example : PB.isZero (some ⟨some ⟨true, 0#16⟩, none⟩) = false ∧
    PB.string PB.plainWorld (some ⟨some ⟨true, 0#16⟩, none⟩) = b!"<invalid_pbrule>" := ⟨rfl, rfl⟩

end Verif.Unset
