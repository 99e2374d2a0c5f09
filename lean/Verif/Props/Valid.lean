import Verif.Model.Valid
import Verif.Props.Length
import Verif.Props.Uri
import Verif.Props.Rights

/-!
# Validity (C109)
-/

namespace Verif.Valid
open Verif Verif.Spec Verif.Misc Verif.Attr

/-- The text says something: it is not empty and not one of the markers like
`<invalid_address_list>`. -/
def Telling (t : Str) : Prop := ∃ c s, t = c :: s ∧ c ≠ 60

theorem telling_app {a : Str} (b : Str) (h : Telling a) : Telling (a ++ b) := by
  obtain ⟨c, s, rfl, hc⟩ := h
  exact ⟨c, s ++ b, rfl, hc⟩

theorem telling_all {a : Str} (h : a ≠ []) (h' : ∀ c ∈ a, c ≠ 60) : Telling a := by
  cases a with
  | nil => exact absurd rfl h
  | cons c s => exact ⟨c, s, rfl, h' c (by simp)⟩

theorem telling_join {sep : Str} {l : List Str} (hl : l ≠ []) (h : ∀ s ∈ l, Telling s) : Telling (Str.join sep l) := by
  cases l with
  | nil => exact absurd rfl hl
  | cons a t =>
    cases t with
    | nil => exact h a (by simp)
    | cons b t =>
      simp only [Str.join]
      rw [List.append_assoc]
      exact telling_app _ (h a (by simp))

theorem mark (s : Str) : ¬ Telling (60 :: s) := by
  rintro ⟨c, t, e, hc⟩
  cases e
  exact hc rfl

theorem nothing : ¬ Telling [] := by
  rintro ⟨c, t, e, _⟩
  cases e

/-! ## Where it fails -/

/-- The claim for pairs: a pair is valid exactly if its text says something. -/
def PairsTell : Prop :=
  ∀ (k : BindKeyword) (x : List Attr.Arg) (t : Str), (Attr.mkABTV k x).string = some t →
    (pair (Attr.mkABTV k x) = true ↔ Telling t)

/-- The claim for inheritances. -/
def InheritancesTell : Prop :=
  ∀ (S : Shifty 16) (k : BindKeyword) (x : List Attr.Arg) (h : List Levels.Arg) (t : Str),
    (Attr.mkABTV k x).string = some t →
    (Levels.valid (Levels.Inherit (Attr.mkABTV k x) h) = true ↔
      Telling t ∧ Telling (Levels.string S (Levels.Inherit (Attr.mkABTV k x) h)))

/-- The claim for days. -/
def DaysTell : Prop :=
  ∀ (S : Shifty 8) (h : List Time.Call),
    (Time.valid S (h.foldl Time.Call.run none) = true ↔ Telling (Time.string S (h.foldl Time.Call.run none)))

/-- **C109** fails: a pair without parts is valid and prints nothing; so is an inheritance of
it; days with a bit that is no day are valid and begin with a marker. -/
theorem C109_counterexample : ¬ PairsTell ∧ ¬ InheritancesTell ∧ ¬ DaysTell := by
  refine ⟨fun h => ?_, fun h => ?_, fun h => ?_⟩
  · exact nothing ((h BindUAT [] [] rfl).1 rfl)
  · exact nothing ((h (Shifty.anyRef 16) BindUAT [] [] [] rfl).1 rfl).1
  · have := (h (Shifty.anyRef 8) [.shift [.day 1#8, .day Time.Sun]]).1 (by decide)
    revert this
    exact mark _

/-! ## Single values -/

/-- **C109** for single values: attribute types, names, filters, attribute filters, times of
day, strength factors and permissions are valid exactly if their text says something.
(The text of a filter may begin with any byte.) -/
theorem C109_values (S : Shifty 16) :
    (∀ x, attrType (Attr.AT x) = true ↔ Telling (Attr.AttributeType.string (Attr.AT x))) ∧
    (∀ d : DN.BindDN, name d = true ↔ Telling (DN.BindDN.string d)) ∧
    (∀ d : DN.TargetDN, name d = true ↔ Telling (DN.TargetDN.string d)) ∧
    (∀ f, filter f = true ↔ Filter.SearchFilter.string f ≠ []) ∧
    (∀ f, Filter.AttributeFilter.valid f = true ↔ Filter.AttributeFilter.string f ≠ []) ∧
    (∀ t, Time.TimeOfDay.valid t = true ↔ Telling (Time.TimeOfDay.string t)) ∧
    (∀ f, factor f = true ↔ Telling (Sec.string f)) ∧
    (∀ p, Rights.valid p = true ↔ Telling (Rights.string S p)) := by
  have num : ∀ n, Telling (Str.ofNat n) := fun n => telling_all (Str.ofNat_ne_nil n) fun c hc e => by
    have := Str.ofNat_digits n c hc
    subst e
    exact absurd this (by decide)
  have dn : ∀ (s : Str) (d : Option DN.DName), (name d = true ↔ Telling (DN.stringWith (60 :: s) d)) := by
    intro s d
    cases d with
    | none => exact ⟨fun h => (by cases h), fun h => absurd h (mark _)⟩
    | some d =>
      obtain ⟨kw, text⟩ := d
      cases text with
      | none => exact ⟨fun h => (by cases h), fun h => absurd h (mark _)⟩
      | some t => exact ⟨fun _ => ⟨108, _, rfl, by decide⟩, fun _ => rfl⟩
  have low : ∀ c : Byte, Cased c → c ≠ 60 := by
    intro c h e
    subst e
    revert h
    unfold Cased
    decide
  refine ⟨fun x => ?_, dn _, dn _, fun f => ?_, fun f => ?_, fun t => ?_, fun f => ?_, fun p => ?_⟩
  · cases h : Attr.AT x with
    | none => exact ⟨fun h => (by cases h), fun h => absurd h (mark _)⟩
    | some y =>
      have hy : Telling y := by
        unfold Attr.AT at h
        split at h
        · rename_i hx
          cases h
          rcases Bool.or_eq_true_iff.1 hx with h1 | h1
          · obtain ⟨⟨a, t, e, ha⟩, -, -⟩ := (isIdentifier_iff _).1 h1
            exact ⟨a, t, e, low a ha⟩
          · rw [eq_of_beq h1]
            exact ⟨42, [], rfl, by decide⟩
        · cases h
      refine ⟨fun _ => hy, fun _ => ?_⟩
      obtain ⟨c, s, rfl, -⟩ := hy
      rfl
  · cases f with
    | none => exact ⟨fun h => (by cases h), fun h => absurd rfl h⟩
    | some s => cases s <;> simp [filter, Filter.SearchFilter.isZero, Filter.SearchFilter.string]
  · cases f with
    | none => exact ⟨fun h => (by cases h), fun h => absurd rfl h⟩
    | some a =>
      unfold Filter.AttributeFilter.string
      by_cases h : Filter.AttributeFilter.valid (some a) = true
      · simp [h]
      · simp [h]
  · cases t with
    | none => exact ⟨fun h => (by cases h), fun h => absurd h (mark _)⟩
    | some b =>
      refine ⟨fun _ => ?_, fun _ => rfl⟩
      unfold Time.TimeOfDay.string Time.padDec
      simp only
      refine telling_all (by simp [Str.ofNat_ne_nil]) fun c hc => ?_
      rcases List.mem_append.1 hc with hc | hc
      · rw [(List.mem_replicate.1 hc).2]; decide
      · intro e
        have := Str.ofNat_digits _ c hc
        subst e
        exact absurd this (by decide)
  · refine ⟨fun _ => ?_, fun _ => rfl⟩
    unfold Sec.string
    split
    · exact num _
    · exact ⟨48, [], rfl, by decide⟩
  · cases p with
    | none => exact ⟨fun h => (by cases h), fun h => absurd h (mark _)⟩
    | some c =>
      refine ⟨fun _ => ?_, fun _ => rfl⟩
      have hs : ∀ rs, Telling (Rights.sprintf (some c) rs) := by
        intro rs
        unfold Rights.sprintf Rights.disposition
        obtain ⟨d, b⟩ := c
        cases d
        · exact ⟨100, _, rfl, by decide⟩
        · exact ⟨97, _, rfl, by decide⟩
      unfold Rights.string
      simp only
      split
      · exact hs _
      split
      · exact hs _
      split
      · exact hs _
      · exact hs _

example : attrType (Attr.AT b!"cn") = true ∧ attrType (Attr.AT b!"2cn") = false ∧
    name (DN.UDN b!"uid=jesse") = true ∧ name (DN.UDN []) = false := by decide +kernel

/-- **C109** for object identifiers: one made with a keyword is valid exactly if its text says
something. -/
theorem C109_identifiers (R : Oid.DotReader) (k : TargetKeyword) (x : List Oid.Arg) :
    (oid (some (Oid.newObjectID R.read k x).1) = true ↔
      Telling (Oid.string (some (Oid.newObjectID R.read k x).1))) := by
  have key : ∀ (x : List Oid.Arg) (st : Option Str × Bool), (∀ t, st.1 = some t → Telling t) →
      ∀ t, (x.foldl (Oid.setOne R.read) st).1 = some t → Telling t := by
    have rd : ∀ s t, R.read s = some t → Telling t := by
      intro s t h
      obtain ⟨h1, h2⟩ := R.dots s t h
      refine telling_all h1 fun c hc e => ?_
      have := h2 c hc
      subst e
      exact absurd this (by decide)
    intro x
    induction x with
    | nil => exact fun st h => h
    | cons a x ih =>
      intro st h
      refine ih _ ?_
      cases a with
      | oid o =>
        simp only [Oid.setOne]
        split
        · exact h
        · exact rd _
      | str s => exact rd s
      | kw k => exact h
      | other => exact h
  have hd := key x (none, true) (by simp)
  unfold Oid.newObjectID
  simp only
  by_cases hb : (x.foldl (Oid.setOne R.read) (none, true)).2 = true
  · rw [if_pos hb]
    cases hq : (x.foldl (Oid.setOne R.read) (none, true)).1 with
    | none => exact ⟨fun h => (by cases h), fun h => absurd h (mark _)⟩
    | some t =>
      by_cases hk : k = 0
      · subst hk
        exact ⟨fun h => (by cases h), fun h => absurd h (mark _)⟩
      · refine ⟨fun _ => ?_, fun _ => ?_⟩
        · simp [Oid.string, Oid.isZero, hk]
          exact hd t hq
        · simp [oid, Oid.isZero, hk]
  · rw [if_neg hb]
    refine ⟨fun h => ?_, fun h => ?_⟩
    · simp [oid, Oid.isZero] at h
    · simp [Oid.string, Oid.isZero] at h
      exact absurd h (mark _)

example : oid (Oid.Ctrl Oid.plainReader.read [.str b!"1.3.6"]) = true ∧
    oid (Oid.Ctrl Oid.plainReader.read [.str b!"cn"]) = false := by decide +kernel

/-- **C109** for URIs: one is valid exactly if its text says something. -/
theorem C109_uris (u : Uri.LDAPURI) : (Uri.LDAPURI.valid u = true ↔ Telling (Uri.LDAPURI.string u)) := by
  cases u with
  | none => exact ⟨fun h => (by cases h), fun h => absurd h nothing⟩
  | some u =>
    unfold Uri.LDAPURI.valid Uri.LDAPURI.string Uri.Uri.string
    simp only
    by_cases h : u.valid = true
    · have hd : Telling (DN.BindDN.string u.dn) := by
        obtain ⟨dn, _⟩ := u
        unfold Uri.Uri.valid at h
        cases dn with
        | none => cases h
        | some d =>
          obtain ⟨kw, t⟩ := d
          cases t with
          | none => cases h
          | some t => exact ⟨108, _, rfl, by decide⟩
      refine ⟨fun _ => ?_, fun _ => h⟩
      rw [if_neg (by simp [h])]
      split
      · exact telling_app _ hd
      split
      · exact telling_app _ hd
      · rw [List.append_assoc, List.append_assoc]
        exact telling_app _ hd
    · rw [if_pos (by simpa using h)]
      exact ⟨fun h' => absurd h' h, fun h' => absurd h' (mark _)⟩

/-! ## Sets and lists -/

/-- **C109** for addresses and host names: whatever was offered to them, they are valid
exactly if their text says something. -/
theorem C109_hosts (calls : List (List Str)) (r : Net.FQDN) (hr : Net.Reachable r) :
    (Net.IPAddr.valid (calls.foldl Net.IPAddr.set none) = true ↔
      Telling (Net.IPAddr.string (calls.foldl Net.IPAddr.set none))) ∧
    (r.valid = true ↔ Telling r.string) := by
  constructor
  · have he := (Net.C23_history [] calls).1
    cases hq : calls.foldl Net.IPAddr.set none with
    | none => exact ⟨fun h => (by cases h), fun h => absurd h (mark _)⟩
    | some l =>
      rw [hq] at he
      have hl : l = Net.expected calls.flatten := he
      cases hn : l with
      | nil => exact ⟨fun h => (by cases h), fun h => absurd h nothing⟩
      | cons a t =>
        refine ⟨fun _ => telling_join (by simp) fun s hs => ?_, fun _ => rfl⟩
        rw [← hn, hl] at hs
        obtain ⟨h1, h2⟩ := (((Net.C23_expected calls.flatten).2.1 s).1 hs).2
        refine telling_all (by intro e; rw [e] at h1; exact absurd h1 (by decide)) fun c hc e => ?_
        rcases h2 with h2 | h2
        · have := h2 c hc
          subst e
          exact absurd this (by decide)
        · have := h2 c hc
          subst e
          exact absurd this (by decide)
  · have hl := Net.C24_labels_partial r hr
    unfold Net.FQDN.string
    by_cases h : r.valid = true
    · rw [if_neg (by simp [h])]
      refine ⟨fun _ => telling_join ?_ fun s hs => ?_, fun _ => h⟩
      · cases r with
        | none => cases h
        | some l =>
          intro e
          have e : l = [] := e
          subst e
          cases h
      · obtain ⟨h1, -, h2, -⟩ := hl s hs
        refine telling_all (by intro e; rw [e] at h1; exact absurd h1 (by decide)) fun c hc e => ?_
        have := h2 c hc
        subst e
        exact absurd this (by decide)
    · rw [if_pos (by simpa using h)]
      exact ⟨fun h' => absurd h' h, fun h' => absurd h' (mark _)⟩

example : Net.Reachable (Net.DNS [b!"www.example.com"]) ∧ (Net.DNS [b!"www.example.com"]).valid = true ∧
    Net.IPAddr.valid ([[b!"x"], [b!"10.0.0.1"]].foldl Net.IPAddr.set none) = true :=
  ⟨.dns _, by decide +kernel, by decide +kernel⟩

theorem day_words : ∀ n : Fin 256, (BitVec.ofNat 8 n.1).getLsbD 0 = false →
    (Time.wordText (BitVec.ofNat 8 n.1) ≠ Time.badDoW → (Time.wordText (BitVec.ofNat 8 n.1)).head?.any (· != 60) = true) := by
  decide +kernel

/-- **C109** for days: whatever was done to them, they are valid exactly if their text says
something.  Missing: `Day` values that have the lowest bit, see `C109_counterexample`. -/
theorem C109_days_partial (S : Shifty 8) (h : List Time.Call)
    (hh : ∀ c ∈ h, ∀ x, Time.Arg.day x ∈ c.args → x &&& 1#8 = 0#8) :
    (Time.valid S (h.foldl Time.Call.run none) = true ↔ Telling (Time.string S (h.foldl Time.Call.run none))) := by
  have h0 := Length.even_run h hh none rfl
  cases hr : h.foldl Time.Call.run none with
  | none => exact ⟨fun h => (by cases h), fun h => absurd h (mark _)⟩
  | some v =>
    rw [hr] at h0
    have hw := Time.word_cases (fun v => v.getLsbD 0 = false →
      (Time.wordText v ≠ Time.badDoW → (Time.wordText v).head?.any (· != 60) = true)) day_words v h0
    unfold Time.valid
    rw [Time.string_some]
    rw [if_neg (by simp [Time.isZero])]
    by_cases hb : Time.wordText v = Time.badDoW
    · rw [if_pos hb, hb]
      exact ⟨fun h => (by cases h), fun h => absurd h (mark _)⟩
    · rw [if_neg hb]
      refine ⟨fun _ => ?_, fun _ => rfl⟩
      have := hw hb
      cases ht : Time.wordText v with
      | nil => rw [ht] at this; cases this
      | cons c s =>
        rw [ht] at this
        exact ⟨c, s, rfl, by simpa using this⟩

example : ∀ c ∈ [Time.Call.shift [.day Time.Mon, .str b!"fri"]], ∀ x, Time.Arg.day x ∈ c.args → x &&& 1#8 = 0#8 := by
  intro c hc x hx
  simp only [List.mem_singleton] at hc
  subst hc
  simp [Time.Call.args] at hx
  subst hx
  decide

/-- **C109** for pairs and inheritances: with the keyword `userattr` or `groupattr`, the name
of an attribute and a value, they are valid and their text says something; with another
keyword they are not and it does not.  Missing: pairs without one of their parts, see
`C109_counterexample`. -/
theorem C109_pairs_partial (S : Shifty 16) (k : BindKeyword) (a v : Str) (ha : AttrName a) (hv : v ≠ [])
    (ls : List Levels.Arg) :
    let p := Attr.mkABTV k [.str a, .str v]
    (k = BindUAT ∨ k = BindGAT → pair p = true ∧ (∃ t, p.string = some t ∧ Telling t) ∧
      Levels.valid (Levels.Inherit p ls) = true ∧ Telling (Levels.string S (Levels.Inherit p ls))) ∧
    (¬ (k = BindUAT ∨ k = BindGAT) → pair p = false ∧ (∃ t, p.string = some t ∧ ¬ Telling t) ∧
      Levels.valid (Levels.Inherit p ls) = false ∧ ¬ Telling (Levels.string S (Levels.Inherit p ls))) := by
  intro p
  have tell : Telling a := by
    rcases ha with h | h
    · obtain ⟨⟨c, t, e, hc⟩, -, -⟩ := h
      refine ⟨c, t, e, ?_⟩
      rintro rfl
      revert hc
      unfold Cased
      decide
    · exact ⟨42, [], h, by decide⟩
  constructor
  · intro hk
    have hp : p = ⟨k, some ⟨some (some a), slotOfStr v⟩⟩ := by
      show Attr.mkABTV k _ = _
      unfold Attr.mkABTV
      rw [if_pos hk]
      simp [userOrGroupAttr, Cell.set, set1, (AT_some a).2 ha]
    have hk0 : (k == 0) = false := by rcases hk with rfl | rfl <;> decide
    have hs : ∃ t, p.string = some t ∧ Telling t := by
      rw [hp]
      by_cases hb : matchBT v = 0
      · refine ⟨a ++ 35 :: v, ?_, telling_app _ tell⟩
        have hl : 0 < v.length := List.length_pos_iff.2 hv
        simp [ABTV.string, Cell.string, slotOfStr, hb, slotString, AV, AttributeType.string, hl, hv]
      · refine ⟨a ++ 35 :: BindType.string (matchBT v), ?_, telling_app _ tell⟩
        simp [ABTV.string, Cell.string, slotOfStr, hb, slotString, AttributeType.string]
    have hz : p.isZero = false := by rw [hp]; exact hk0
    refine ⟨by simp [pair, hz], hs, ?_, ?_⟩
    · simp [Levels.valid, Levels.Inherit, Levels.isZero, hz]
    · unfold Levels.Inherit Levels.string
      simp only [hz]
      exact ⟨112, _, rfl, by decide⟩
  · intro hk
    have hp : p = ABTV.zero := by
      show Attr.mkABTV k _ = _
      unfold Attr.mkABTV
      rw [if_neg hk]
    rw [hp]
    exact ⟨rfl, ⟨_, rfl, mark _⟩, rfl, mark _⟩

example : AttrName b!"cn" ∧ b!"USERDN" ≠ [] := ⟨.inl ((isIdentifier_iff _).1 (by decide)), by decide⟩

end Verif.Valid
