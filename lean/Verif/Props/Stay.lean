import Verif.Model.Valid
import Verif.Lemmas.Time
import Verif.Lemmas.Net
import Verif.Props.PB
import Verif.Model.Ins
import Verif.Model.Uri

/-!
# A valid value stays valid when more is given to it (C143)

`Valid` is asked once, and `Set` and `Shift` are called afterwards.  For permissions, days, levels,
IP addresses, names, pairs, permission bind rules and instructions the answer stays as it was,
whatever the later calls are given.  For attribute filters, host names and LDAP addresses it does
not, and the theorems with the suffix `_partial` say what the later arguments must be.
-/

namespace Verif.Stay
open Verif

/-! ## The claims that fail -/

/-- The claim for attribute filters. -/
def FiltersStay : Prop := ∀ (f : Filter.AttributeFilter) (x : List Filter.AFArg),
  Filter.AttributeFilter.valid f = true → Filter.AttributeFilter.valid (f.set x) = true

/-- The claim for host names. -/
def HostsStay : Prop := ∀ (r : Net.FQDN) (x : List Str), Net.FQDN.valid r = true → Net.FQDN.valid (r.set x) = true

/-- The claim for addresses. -/
def AddressesStay : Prop := ∀ (eq : Str → Str → Bool) (u : Uri.LDAPURI) (x : List Uri.Arg),
  Uri.LDAPURI.valid u = true → Uri.LDAPURI.valid (u.set eq x) = true

/-- The address `ldap:///cn=a`. -/
def named : Uri.LDAPURI := some (Uri.newURI.set1 (· == ·) (.dn (DN.UDN b!"cn=a")))

/-- **C143** fails: an unset filter takes the place of the one that is set, a sixteenth label makes
a host name invalid, and an address that is given without a name takes the name away. -/
theorem C143_counterexample : ¬ FiltersStay ∧ ¬ HostsStay ∧ ¬ AddressesStay := by
  refine ⟨fun h => ?_, fun h => ?_, fun h => ?_⟩
  · have := h (some ⟨some b!"cn", some b!"(cn=a)"⟩) [.sf none] (by decide)
    revert this; decide
  · have := h (some (List.replicate 15 b!"a")) [b!"b"] (by decide +kernel)
    revert this; decide +kernel
  · have := h (· == ·) named [.str b!"ldap:///??sub?"] (by decide +kernel)
    revert this; decide +kernel

/-! ## What holds for them -/

/-- **C143** for attribute filters.  Missing: parts that are unset, and the empty text. -/
theorem C143_filters_partial (f : Filter.AttributeFilter) (x : List Filter.AFArg) (h : Filter.AttributeFilter.valid f = true)
    (hx : ∀ a ∈ x, match a with
      | .str s => s ≠ []
      | .at_ a => Valid.attrType a = true
      | .sf g => Valid.filter g = true
      | .other => True) : Filter.AttributeFilter.valid (f.set x) = true := by
  cases f with
  | none => cases h
  | some r =>
    have key : ∀ (x : List Filter.AFArg) (r : Filter.Atf), Filter.AttributeFilter.valid (some r) = true →
        (∀ a ∈ x, match a with
          | .str s => s ≠ []
          | .at_ a => Valid.attrType a = true
          | .sf g => Valid.filter g = true
          | .other => True) → Filter.AttributeFilter.valid (some (r.set x)) = true := by
      intro x
      induction x with
      | nil => intro r h _; exact h
      | cons a x ih =>
        intro r h hx
        have ha := hx a List.mem_cons_self
        refine ih (r.set1 a) ?_ fun b hb => hx b (List.mem_cons_of_mem _ hb)
        simp only [Filter.AttributeFilter.valid, Bool.and_eq_true, Bool.not_eq_true'] at h ⊢
        cases a with
        | str s =>
          simp only [Filter.Atf.set1]
          split
          · rename_i hi
            refine ⟨h.1, ?_⟩
            have ha : s ≠ [] := ha
            simp only [Attr.AT, hi]
            simp [Attr.AttributeType.isZero, ha]
          · have ha : s ≠ [] := ha
            exact ⟨by simp [Filter.SearchFilter.isZero, Filter.mkFilter, ha], h.2⟩
        | at_ a => exact ⟨h.1, by simpa [Valid.attrType, Filter.Atf.set1] using ha⟩
        | sf g => exact ⟨by simpa [Valid.filter, Filter.Atf.set1] using ha, h.2⟩
        | other => exact h
    have hz : Filter.AttributeFilter.isZero (some r) = false := by
      simp only [Filter.AttributeFilter.valid, Bool.and_eq_true, Bool.not_eq_true'] at h
      simp [Filter.AttributeFilter.isZero, h.1]
    simp only [Filter.AttributeFilter.set, hz, Option.map_some]
    exact key x r h hx

/-- **C143** for host names: they keep their labels, and are valid as long as there are at most
fifteen.  Missing: that the sixteenth label is refused. -/
theorem C143_hosts_partial (r : Net.FQDN) (x : List Str) (h : Net.FQDN.valid r = true) :
    (∃ more, (r.set x).getD [] = r.getD [] ++ more) ∧
    (Net.FQDN.valid (r.set x) = true ↔ ((r.set x).getD []).length ≤ 15) := by
  cases r with
  | none => cases h
  | some l =>
    have more : ∃ more, Net.labelsSet l x = l ++ more := by
      unfold Net.labelsSet
      split
      · exact ⟨[], by simp⟩
      · split
        · exact ⟨[], by simp⟩
        · split
          · exact ⟨_, rfl⟩
          · exact ⟨[], by simp⟩
    refine ⟨more, ?_⟩
    obtain ⟨m, hm⟩ := more
    have h1 := ((Net.valid_iff l).1 h).1
    simp only [Net.FQDN.set, Option.getD_some, Net.valid_iff, hm, List.length_append]
    omega

/-- **C143** for addresses.  Missing: unset names, and texts of addresses without a name. -/
theorem C143_addresses_partial (eq : Str → Str → Bool) (u : Uri.LDAPURI) (x : List Uri.Arg) (h : Uri.LDAPURI.valid u = true)
    (hx : ∀ a ∈ x, (∀ d, a = .part (.dn d) → Valid.name d = true) ∧
      ∀ s v, a = .str s → Uri.parseLDAPURI eq s [] = .ok v → Uri.LDAPURI.valid (some v) = true) :
    Uri.LDAPURI.valid (u.set eq x) = true := by
  cases u with
  | none => cases h
  | some u =>
    simp only [Uri.LDAPURI.set]
    induction x generalizing u with
    | nil => exact h
    | cons a x ih =>
      have ha := hx a List.mem_cons_self
      have hx' := fun b hb => hx b (List.mem_cons_of_mem _ hb)
      cases a with
      | str s =>
        simp only [Uri.Uri.set]
        split
        · rename_i l hl; exact ha.2 s l rfl hl
        · exact ih hx' _ h
      | part p =>
        simp only [Uri.Uri.set]
        refine ih hx' _ ?_
        cases p with
        | dn d =>
          have := ha.1 d rfl
          simp only [Valid.name] at this
          simp only [Uri.LDAPURI.valid, Uri.Uri.valid, Uri.Uri.set1]
          split at this <;> simp_all
        | _ => exact h

/-! ## The others -/

theorem day_valid (S : Shifty 8) (v : BitVec 8) : Time.valid S (some v) = true ↔ v &&& 0xFE#8 ≠ 0#8 := by
  have key : Time.wordText v ≠ Time.badDoW ↔ v &&& 0xFE#8 ≠ 0#8 :=
    Time.word_cases (fun v => Time.wordText v ≠ Time.badDoW ↔ v &&& 0xFE#8 ≠ 0#8) (by decide +kernel) v
  simp only [Time.valid, Time.isZero, Option.isNone_some, Time.string_some]
  rw [← key]
  simp

/-- **C143** for permissions: granting and revoking. -/
theorem C143_permissions (S : Shifty 16) (p : Rights.Permission) (x : List Rights.Arg) (h : Rights.valid p = true) :
    Rights.valid (Rights.shift S p x) = true ∧ Rights.valid (Rights.unshift S p x) = true := by
  cases p with
  | none => cases h
  | some c => exact ⟨rfl, rfl⟩

/-- **C143** for days: whatever is added. -/
theorem C143_days (S : Shifty 8) (r : Time.DayOfWeek) (x : List Time.Arg) (h : Time.valid S r = true) :
    Time.valid S (Time.shift r x) = true := by
  cases r with
  | none => cases h
  | some v =>
    simp only [Time.shift, Option.getD_some]
    induction x generalizing v with
    | nil => exact h
    | cons a x ih =>
      refine ih (Time.shift1 v a) ?_
      have key : ∀ d, Time.valid S (some (Shifty.shift v d)) = true := by
        intro d
        rw [day_valid] at h ⊢
        intro e
        refine h ?_
        apply BitVec.eq_of_getLsbD_eq
        intro i hi
        have := congrArg (fun w : BitVec 8 => w.getLsbD i) e
        simp only [Shifty.shift, BitVec.getLsbD_and, BitVec.getLsbD_or, BitVec.getLsbD_zero] at this ⊢
        revert this
        cases v.getLsbD i <;> simp
      cases a with
      | int i => simp only [Time.shift1]; split <;> first | exact key _ | exact h
      | str s => simp only [Time.shift1]; split <;> first | exact key _ | exact h
      | day d => exact key d
      | other => exact h

/-- **C143** for inheritances: levels that are added or taken away. -/
theorem C143_inheritances (r : Levels.Inheritance) (x : List Levels.Arg) (h : Levels.valid r = true) :
    Levels.valid (Levels.shift r x) = true ∧ Levels.valid (Levels.unshift r x) = true := by
  cases r with
  | none => cases h
  | some i =>
    have hz : Levels.isZero (some i) = false := by simpa [Levels.valid] using h
    constructor
    · simp only [Levels.shift, hz]; exact h
    · simp only [Levels.unshift, hz]; exact h

/-- **C143** for addresses of hosts. -/
theorem C143_ips (r : Net.IPAddr) (x : List Str) (h : Net.IPAddr.valid r = true) : Net.IPAddr.valid (r.set x) = true := by
  cases r with
  | none => cases h
  | some l =>
    have grow : ∀ (x l : List Str), l.length ≤ (Net.ipSet l x).length := by
      intro x
      induction x with
      | nil => intro l; exact Nat.le_refl _
      | cons a x ih =>
        intro l
        simp only [Net.ipSet]
        split
        · split
          · have := ih (l ++ [a]); simp only [List.length_append, List.length_cons, List.length_nil] at this; omega
          · exact ih l
        · exact ih l
    have := grow x l
    have hv : ∀ l, Net.IPAddr.valid (some l) = true ↔ l ≠ [] := by
      intro l
      cases l <;> simp [Net.IPAddr.valid, Net.IPAddr.len]
    have hl := (hv l).1 h
    refine (hv _).2 fun e => hl ?_
    rw [Option.getD_some] at e
    rw [e] at this
    exact List.length_eq_zero_iff.1 (Nat.le_zero.1 this)

/-- **C143** for names: the empty text is passed over. -/
theorem C143_names (d : Option DN.DName) (x : Str) (h : Valid.name d = true) :
    (∀ k, Valid.name (DN.BindDN.set d x k) = true) ∧ ∀ k, Valid.name (DN.TargetDN.set d x k) = true := by
  have key : ∀ k, Valid.name (DN.setWith d x k) = true := by
    intro k
    cases d with
    | none => cases h
    | some d =>
      have hz : DN.isZero (some d) = false := by
        simp only [Valid.name] at h; split at h <;> simp_all
      simp only [DN.setWith, hz, DN.DName.set]
      split
      · exact h
      · rename_i hx
        simp [Valid.name, DN.newDN, hx, DN.isZero]
  exact ⟨fun k => key _, fun k => key _⟩

/-- **C143** for pairs. -/
theorem C143_pairs (r : Attr.ABTV) (x : List Attr.Arg) (h : Valid.pair r = true) : Valid.pair (r.set x) = true := by
  simp only [Valid.pair] at h ⊢
  split at h
  · rename_i hz
    obtain ⟨kw, c⟩ := r
    cases c with
    | none => simp [Attr.ABTV.isZero] at hz
    | some c =>
      have hk : (kw == 0) = false := by simpa [Attr.ABTV.isZero] using hz
      simp [Attr.ABTV.set, Attr.ABTV.isZero, hk]
  · cases h

theorem read_valid (w : PB.World) (parser : Str → Option PB.Tokens) (t : Str) (s : PB.Store)
    (e : PB.read w parser t = some s) : PB.valid (some s) = true := by
  unfold PB.read at e
  split at e
  · cases e
  · rename_i t' _
    split at e
    · rename_i r hp
      cases e
      unfold PB.process at hp
      split at hp
      · cases hp
      · rename_i c _
        cases hc : Bind.convert w.env w.text t'.b with
        | panic => rw [hc] at hp; cases hp
        | err => rw [hc] at hp; cases hp
        | ok bo =>
          obtain ⟨b, o⟩ := bo
          rw [hc] at hp
          simp only [PB.withBind] at hp
          split at hp
          · cases hp; rfl
          · cases hp
    · cases e

/-- **C143** for permission bind rules: whatever is given, also texts, which are read as `PB.read` does. -/
theorem C143_permission_bind_rules (w : PB.World) (parser : Str → Option PB.Tokens) (r : PB.PBRule) (x : List PB.SetArg)
    (h : PB.valid r = true) : PB.valid (PB.set (PB.read w parser) r x) = true := by
  have key : ∀ (x : List PB.SetArg) (s : PB.Store), PB.valid (some s) = true → PB.valid (some (PB.setAll (PB.read w parser) s x)) = true := by
    intro x
    induction x with
    | nil => intro s h; exact h
    | cons a x ih =>
      intro s h
      cases a with
      | str t =>
        simp only [PB.setAll]
        cases e : PB.read w parser t with
        | none => exact h
        | some s' =>
          refine ih s' ?_
          exact read_valid w parser t s' e
      | perm p =>
        simp only [PB.setAll]
        split
        · rename_i hp
          refine ih _ ?_
          obtain ⟨c, b, e⟩ := (PB.valid_iff _).1 h
          cases e
          cases p with
          | none => cases hp
          | some c' => rfl
        · exact h
      | ctx b =>
        simp only [PB.setAll]
        split
        · refine ih _ ?_
          obtain ⟨c, b', e⟩ := (PB.valid_iff _).1 h
          cases e
          rfl
        · exact h
      | other => exact ih s h
  cases r with
  | none => cases h
  | some s =>
    have hz : PB.isZero (some s) = false := by
      obtain ⟨c, b, e⟩ := (PB.valid_iff _).1 h
      cases e; rfl
    simp only [PB.set, PB.storage, hz]
    exact key x s h

/-- **C143** for instructions and for times: the next value counts. -/
theorem C143_instructions (w : PB.World) (rd : Str → Option PB.Store) (i : Ins.Instruction) (x : List Ins.SetArg)
    (t : Time.TimeOfDay) (a : Time.TArg) :
    Ins.valid (Ins.set w rd i x) = true ∧ Time.TimeOfDay.valid (Time.set t a) = true := by
  constructor <;> rfl

/-! ## Cases that meet the hypotheses -/

example : Filter.AttributeFilter.valid (some ⟨some b!"cn", some b!"(cn=a)"⟩) = true ∧
    Filter.AttributeFilter.set (some ⟨some b!"cn", some b!"(cn=a)"⟩) [.str b!"(sn=b)", .other, .at_ (some b!"sn")] =
      some ⟨some b!"sn", some b!"(sn=b)"⟩ := by decide

example : Net.FQDN.valid (some [b!"www", b!"com"]) = true ∧
    Net.FQDN.set (some [b!"www", b!"com"]) [b!"au.uk"] = some [b!"www", b!"com", b!"au", b!"uk"] := by decide +kernel

example : Uri.LDAPURI.valid named = true ∧
    Uri.LDAPURI.valid (named.set (· == ·) [.str b!"ldap:///cn=b??sub?"]) = true := by decide +kernel

example : Rights.valid (Rights.unshift (.anyRef 16) (Rights.Allow (.anyRef 16) [.str b!"read"]) [.str b!"read"]) = true := by
  decide +kernel

example : Time.valid (.anyRef 8) (some 2#8) = true ∧ Time.shift (some 2#8) [.str b!"mon", .str b!"noday"] = some 6#8 := by
  decide +kernel

example : Net.IPAddr.valid (some [b!"10.0.0.1"]) = true ∧ (Net.IPAddr.set (some [b!"10.0.0.1"]) [b!"x", b!"10."]) ≠ none := by
  decide +kernel

example : Valid.name (DN.UDN b!"cn=a") = true ∧ (DN.BindDN.set (DN.UDN b!"cn=a") b!"cn=b" []) ≠ DN.UDN b!"cn=a" := by decide +kernel

example : Valid.pair (Attr.mkABTV BindUAT [.str b!"manager"]) = true := by decide +kernel

example : Levels.valid (some ⟨1#16, Attr.mkABTV BindUAT [.str b!"manager", .str b!"USERDN"]⟩) = true := by decide +kernel

example (w : PB.World) (parser : Str → Option PB.Tokens) (c : Rights.Cell) (b : Bind.BCtx) (s : Str) :
    PB.valid (PB.set (PB.read w parser) (some ⟨some c, some b⟩) [.perm (some c), .str s, .perm none]) = true :=
  C143_permission_bind_rules w parser _ _ rfl

/-! ## Taking away may leave nothing -/

/-- Days, unlike permissions, may lose all: so that the claim is about what is added. -/
theorem C143_unshift_days (S : Shifty 8) : Time.valid S (some 2#8) = true ∧ Time.valid S (some (Time.unshift1 2#8 (.day 2#8))) = false := by
  constructor
  · rw [day_valid]; decide
  · have := day_valid S (Time.unshift1 2#8 (.day 2#8))
    cases h : Time.valid S (some (Time.unshift1 2#8 (.day 2#8))) with
    | false => rfl
    | true => exact absurd (this.1 h) (by decide)

end Verif.Stay
