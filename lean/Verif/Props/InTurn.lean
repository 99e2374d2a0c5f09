import Verif.Props.AsText
import Verif.Props.PB
import Verif.Props.Ins

/-!
# Arguments given together and one after another (C124)
-/

namespace Verif.InTurn
open Verif Verif.Attr Verif.DN Verif.DNList Verif.Filter Verif.Rules Verif.Spec

/-- A call of `f` with several arguments is a call with the first and then a call with the others. -/
def InTurn {R X : Type} (f : R → List X → R) : Prop := ∀ r x xs, f r (x :: xs) = f (f r [x]) xs

/-! ## What is claimed -/

/-- **C124** for lists of names of bind rules. -/
def BindNamesInTurn : Prop := ∀ F : EqualFold, InTurn (BDNs.push F.eq)

/-- **C124** for lists of names of targets. -/
def TargetNamesInTurn : Prop := ∀ F : EqualFold, InTurn (TDNs.push F.eq)

/-- **C124** for lists of target rules, whatever a refused argument does to the call. -/
def TargetRulesInTurn : Prop := ∀ stop, InTurn (TRs.push stop)

/-- **C124** for stacks of bind rules. -/
def BindRulesInTurn : Prop := ∀ stop, InTurn (Bind.pushB stop)

/-- **C124** for lists of permission bind rules. -/
def PermissionRulesInTurn : Prop := ∀ w rd, InTurn (PB.push w rd)

/-- **C124** for the parts of a permission bind rule. -/
def PermissionPartsInTurn : Prop := ∀ rd, InTurn (PB.set rd)

/-- **C124** for the parts of a pair. -/
def PairsInTurn : Prop := InTurn ABTV.set

/-- **C124** for the levels of an inheritance. -/
def LevelsInTurn : Prop := InTurn Levels.shift

/-- **C124** for host names. -/
def HostsInTurn : Prop := InTurn Net.FQDN.set

/-- **C124** for the parts of an address. -/
def AddressesInTurn : Prop := ∀ F : EqualFold, InTurn (Uri.LDAPURI.set F.eq)

/-! ## What holds -/

theorem ips (r : List Str) (x : Str) (xs : List Str) : Net.ipSet r (x :: xs) = Net.ipSet (Net.ipSet r [x]) xs := by
  simp only [Net.ipSet]
  split <;> (try split) <;> rfl

/-- **C124** holds for lists of attribute types, object identifiers, filters, operations and
instructions, for permissions, days, levels that are switched off, addresses of hosts and the parts of
instructions. -/
theorem C124_values (S : Shifty 16) (F : EqualFold) (R : Oid.DotReader) (w : PB.World)
    (rd : Str → Option PB.Store) (ri : Str → Option Ins.Instruction) :
    InTurn (ATs.push F.eq) ∧ InTurn (Oid.OIDs.push F.eq R.read) ∧ InTurn AFO.push ∧ InTurn AFOs.push ∧
    InTurn (Ins.push w ri) ∧ InTurn (Ins.set w rd) ∧ InTurn (Rights.shift S) ∧ InTurn (Rights.unshift S) ∧
    InTurn Time.shift ∧ InTurn Time.unshift ∧ InTurn Levels.unshift ∧ InTurn Net.IPAddr.set := by
  refine ⟨fun _ _ _ => rfl, fun _ _ _ => rfl, fun _ _ _ => rfl, fun _ _ _ => rfl, fun _ _ _ => rfl,
    fun _ _ _ => rfl, ?_, ?_, fun _ _ _ => rfl, ?_, ?_, ?_⟩
  · intro r x xs; cases r <;> rfl
  · intro r x xs; cases r <;> rfl
  · intro r x xs; cases r <;> rfl
  · intro r x xs
    cases r with
    | none => rfl
    | some i =>
      cases h : i.abtv.isZero <;> simp [Levels.unshift, Levels.isZero, h, Levels.Inh.unshift]
  · intro r x xs
    simp only [Net.IPAddr.set, Option.getD_some]
    rw [ips]

/-- Of two attribute filters made by the same calls from an unset one, the text is the same. -/
theorem atf_zero (a : Atf) (xs : List AFArg) (h : AttributeFilter.isZero (some a) = true) :
    AttributeFilter.string (some (a.set xs)) = AttributeFilter.string (some (Atf.set ⟨none, none⟩ xs)) := by
  have key : ∀ (xs : List AFArg) (a b : Atf),
      (a.at_ = b.at_ ∨ AttributeType.isZero a.at_ = true ∧ AttributeType.isZero b.at_ = true) →
      (a.sf = b.sf ∨ SearchFilter.isZero a.sf = true ∧ SearchFilter.isZero b.sf = true) →
      AttributeFilter.string (some (a.set xs)) = AttributeFilter.string (some (b.set xs)) := by
    intro xs
    induction xs with
    | nil =>
      intro a b h1 h2
      obtain ⟨a1, a2⟩ := a
      obtain ⟨b1, b2⟩ := b
      simp only at h1 h2
      rcases h1 with rfl | ⟨ha, hb⟩ <;> rcases h2 with rfl | ⟨hc, hd⟩ <;>
        simp [Atf.set, AttributeFilter.string, AttributeFilter.valid, *]
    | cons x xs ih =>
      intro a b h1 h2
      simp only [Atf.set, List.foldl_cons]
      refine ih _ _ ?_ ?_
      · cases x with
        | str s => simp only [Atf.set1]; split <;> simp_all
        | _ => simp_all [Atf.set1]
      · cases x with
        | str s => simp only [Atf.set1]; split <;> simp_all
        | _ => simp_all [Atf.set1]
  simp only [AttributeFilter.isZero, Bool.and_eq_true] at h
  exact key xs a ⟨none, none⟩ (.inr ⟨h.2, rfl⟩) (.inr ⟨h.1, rfl⟩)

/-- **C124** for attribute filters: either way gives the same text. -/
theorem C124_filters (r : AttributeFilter) (x : AFArg) (xs : List AFArg) :
    AttributeFilter.string (r.set (x :: xs)) = AttributeFilter.string ((r.set [x]).set xs) := by
  have after : ∀ a : Atf, AttributeFilter.string (some (a.set xs)) =
      AttributeFilter.string (AttributeFilter.set (some a) xs) := by
    intro a
    simp only [AttributeFilter.set]
    split
    · next h => exact atf_zero a xs h
    · rfl
  have one : ∀ a : Atf, a.set (x :: xs) = (a.set [x]).set xs := fun a => rfl
  by_cases h : AttributeFilter.isZero r = true
  · have h1 : ∀ ys, AttributeFilter.set r ys = some (Atf.set ⟨none, none⟩ ys) := fun ys => if_pos h
    rw [h1, h1, one]
    exact after _
  · cases r with
    | none => exact absurd rfl h
    | some a =>
      have h1 : ∀ ys, AttributeFilter.set (some a) ys = some (a.set ys) := fun ys => if_neg h
      rw [h1, h1, one]
      exact after _

example : AttributeFilter.string (AttributeFilter.set none [.sf (mkFilter b!""), .str b!"cn", .sf (mkFilter b!"(a=b)")]) =
    b!"cn:(a=b)" := by decide +kernel

/-! ## Lists that end a call -/

/-- **C124** for names of bind rules: it holds as long as arguments are of a kind the list takes.  Missing: an
argument which an empty list of the same keyword refuses ends the call. -/
theorem C124_bind_names_partial (F : EqualFold) (r : BDNs) (x : BArg) (xs : List BArg) :
    ((BDNs.push F.eq ⟨r.kw, []⟩ [x]).entries ≠ [] → r.push F.eq (x :: xs) = (r.push F.eq [x]).push F.eq xs) ∧
    ((BDNs.push F.eq ⟨r.kw, []⟩ [x]).entries = [] → r.push F.eq (x :: xs) = r) := by
  cases h : pushBindArg r.kw x with
  | none => simp [BDNs.push, pushLoop, h]
  | some e => simp [BDNs.push, pushLoop, h, pushEntry, DNList.containsText]

/-- **C124** for names of targets.  Missing: as before. -/
theorem C124_target_names_partial (F : EqualFold) (r : TDNs) (x : TArg) (xs : List TArg) :
    ((TDNs.push F.eq ⟨r.kw, []⟩ [x]).entries ≠ [] → r.push F.eq (x :: xs) = (r.push F.eq [x]).push F.eq xs) ∧
    ((TDNs.push F.eq ⟨r.kw, []⟩ [x]).entries = [] → r.push F.eq (x :: xs) = r) := by
  cases h : pushTargetArg r.kw x with
  | none => simp [TDNs.push, pushTargetLoop, h]
  | some e => simp [TDNs.push, pushTargetLoop, h, pushTargetEntry, DNList.containsText]

example (F : EqualFold) : (BDNs.push F.eq ⟨BindUDN, []⟩ [.str b!"cn=a"]).entries ≠ [] ∧
    (BDNs.push F.eq ⟨BindUDN, []⟩ [.str b!""]).entries = [] ∧
    (TDNs.push F.eq ⟨Target, []⟩ [.str b!"cn=a"]).entries ≠ [] ∧
    (TDNs.push F.eq ⟨Target, []⟩ [.other]).entries = [] := by
  refine ⟨?_, rfl, ?_, rfl⟩ <;>
    simp [BDNs.push, pushLoop, pushBindArg, pushEntry, TDNs.push, pushTargetLoop, pushTargetArg, pushTargetEntry,
      DNList.containsText]

theorem stack_in_turn {A E : Type} (accept : List E → A → Option E) (es : List E) (x : A) (xs : List A) :
    stackPush false accept es (x :: xs) = stackPush false accept (stackPush false accept es [x]) xs ∧
    (stackPush true accept es [x] ≠ es →
      stackPush true accept es (x :: xs) = stackPush true accept (stackPush true accept es [x]) xs) ∧
    (stackPush true accept es [x] = es → stackPush true accept es (x :: xs) = es) := by
  cases h : accept es x with
  | none => simp [stackPush, h]
  | some e => simp [stackPush, h]

/-- **C124** for target rules: it holds if a stack goes on after a refused argument.  Missing: if it does not,
the refused argument ends the call. -/
theorem C124_target_rules_partial (es : List TRule) (x : TRArg) (xs : List TRArg) :
    TRs.push false es (x :: xs) = TRs.push false (TRs.push false es [x]) xs ∧
    (TRs.push true es [x] ≠ es → TRs.push true es (x :: xs) = TRs.push true (TRs.push true es [x]) xs) ∧
    (TRs.push true es [x] = es → TRs.push true es (x :: xs) = es) :=
  stack_in_turn acceptTR es x xs

/-- **C124** for bind rules.  Missing: as for target rules. -/
theorem C124_bind_rules_partial (es : List Bind.BCtx) (x : Bind.BArg) (xs : List Bind.BArg) :
    Bind.pushB false es (x :: xs) = Bind.pushB false (Bind.pushB false es [x]) xs ∧
    (Bind.pushB true es [x] ≠ es → Bind.pushB true es (x :: xs) = Bind.pushB true (Bind.pushB true es [x]) xs) ∧
    (Bind.pushB true es [x] = es → Bind.pushB true es (x :: xs) = es) :=
  stack_in_turn (fun _ => Bind.acceptB) es x xs

example : Bind.pushB true [] [.ctx (.rules .and false []), .other, .ctx (.rules .or false [])] ≠ [] ∧
    Bind.pushB true [] [.other, .ctx (.rules .or false [])] = [] := ⟨by simp [Bind.pushB, stackPush, Bind.acceptB], rfl⟩

/-- **C124** for lists of permission bind rules.  Missing: a text that cannot be read ends the call. -/
theorem C124_permission_rules_partial (w : PB.World) (rd : Str → Option PB.Store) (es : List PB.PBRule)
    (x : PB.PArg) (xs : List PB.PArg) :
    ((∀ s, x = .str s → rd s ≠ none) → PB.push w rd es (x :: xs) = PB.push w rd (PB.push w rd es [x]) xs) ∧
    ∀ s, x = .str s → rd s = none → PB.push w rd es (x :: xs) = es := by
  constructor
  · intro h
    cases x with
    | str s =>
      cases hs : rd s with
      | none => exact absurd hs (h s rfl)
      | some r => simp only [PB.push, hs]
    | _ => rfl
  · rintro s rfl hs
    simp only [PB.push, hs]

example : PB.push PB.plainWorld (fun _ => none) [] [.str b!"x", .rule (some ⟨some ⟨true, 2#16⟩, some (.rules .and false [])⟩)] = [] ∧
    (PB.push PB.plainWorld (fun _ => none) [] [.rule (some ⟨some ⟨true, 2#16⟩, some (.rules .and false [])⟩), .str b!"x"]).length = 1 := by
  decide +kernel

/-- **C124** for the parts of a permission bind rule.  Missing: a refused argument ends the call. -/
theorem C124_permission_parts_partial (rd : Str → Option PB.Store) (r : PB.PBRule) (x : PB.SetArg)
    (xs : List PB.SetArg) :
    (¬ PB.Refused rd x → PB.set rd r (x :: xs) = PB.set rd (PB.set rd r [x]) xs) ∧
    (PB.Refused rd x → PB.set rd r (x :: xs) = PB.set rd r []) := by
  simp only [PB.set, PB.storage_eq, Option.getD_some, PB.setAll]
  constructor
  · intro h
    cases x with
    | str s =>
      cases hs : rd s with
      | none => exact absurd hs h
      | some st => simp only [PB.setAll, hs]
    | perm p =>
      have hp : Rights.valid p = true := by simpa [PB.refused_perm] using h
      simp only [PB.setAll, if_pos hp]
    | ctx b =>
      have hb : PB.ctxValid b = true := by simpa [PB.refused_ctx] using h
      simp only [PB.setAll, if_pos hb]
    | other => rfl
  · intro h
    cases x with
    | str s =>
      have hs : rd s = none := h
      simp only [PB.setAll, hs]
    | perm p => simp [PB.setAll, (PB.refused_perm rd p).1 h]
    | ctx b => simp [PB.setAll, (PB.refused_ctx rd b).1 h]
    | other => exact absurd h (by simp [PB.Refused])

example : PB.Refused (fun _ => none) (.perm none) ∧ ¬ PB.Refused (fun _ => none) (.perm (some ⟨true, 2#16⟩)) := by
  simp [PB.Refused]

/-! ## Values that start anew -/

/-- **C124** for pairs with a keyword.  Missing: a pair without keyword forgets what an earlier call gave. -/
theorem C124_pairs_partial (r : ABTV) (x : Arg) (xs : List Arg) :
    (r.kw ≠ 0 → r.set (x :: xs) = (r.set [x]).set xs) ∧ (r.kw = 0 → (r.set [x]).set xs = r.set xs) := by
  obtain ⟨k, c⟩ := r
  constructor
  · intro h
    have hk : (k == 0) = false := by simpa using h
    cases c <;> simp [ABTV.set, ABTV.isZero, hk, Cell.set]
  · rintro rfl
    cases c <;> simp [ABTV.set, ABTV.isZero]

/-- **C124** for levels of inheritances with a pair.  Missing: one without forgets what an earlier call gave. -/
theorem C124_levels_partial (r : Levels.Inheritance) (x : Levels.Arg) (xs : List Levels.Arg) :
    (Levels.isZero r = false → Levels.shift r (x :: xs) = Levels.shift (Levels.shift r [x]) xs) ∧
    (Levels.isZero r = true → Levels.shift (Levels.shift r [x]) xs = Levels.shift r xs) := by
  constructor
  · intro h
    cases r with
    | none => cases h
    | some i =>
      have hi : i.abtv.isZero = false := h
      simp [Levels.shift, Levels.isZero, hi, Levels.Inh.shift]
  · intro h
    have h1 : ∀ ys, Levels.shift r ys = some (Levels.Inh.shift ⟨0#16, ABTV.zero⟩ ys) := by
      intro ys; simp only [Levels.shift, h]
    rw [h1, h1]
    rfl

example : (mkABTV BindUAT []).kw ≠ 0 ∧ ABTV.zero.kw = 0 ∧
    Levels.isZero (Levels.Inherit (mkABTV BindUAT []) [.int 1]) = false ∧ Levels.isZero none = true := by
  decide +kernel

/-! ## Values taken together -/

theorem count_le (l : List Str) (h : ∀ p ∈ l, p ≠ []) : l.length ≤ totalLength l := by
  induction l with
  | nil => exact Nat.le_refl _
  | cons p l ih =>
    have h1 : 0 < p.length := List.length_pos_iff.2 (h p (by simp))
    have h2 := ih fun q hq => h q (by simp [hq])
    simp only [totalLength, List.map_cons, List.sum_cons, List.length_cons] at h2 ⊢
    omega

/-- **C124** for host names: a call that takes its labels takes what one call for each takes.  Missing: a call
with a label that is refused takes none. -/
theorem C124_hosts_partial (ls : List Str) (x : Str) (xs : List Str)
    (h : Net.FQDN.set (some ls) (x :: xs) ≠ some ls) :
    Net.FQDN.set (some ls) (x :: xs) = Net.FQDN.set (Net.FQDN.set (some ls) [x]) xs := by
  simp only [Net.FQDN.set, Option.getD_some, Net.labelsSet_eq] at h ⊢
  have hall : (∀ a ∈ x :: xs, Net.ArgOK a) ∧ ls.length + totalLength (labelsOf (x :: xs)) ≤ 253 := by
    apply Classical.byContradiction
    intro hn
    exact h (by rw [if_neg hn])
  obtain ⟨h1, h2⟩ := hall
  have happ : labelsOf (x :: xs) = labelsOf [x] ++ labelsOf xs := by simp [labelsOf]
  have hsum : totalLength (labelsOf (x :: xs)) = totalLength (labelsOf [x]) + totalLength (labelsOf xs) := by
    rw [happ]; simp [totalLength]
  have hc : (labelsOf [x]).length ≤ totalLength (labelsOf [x]) := by
    apply count_le
    intro p hp
    have hp' : p ∈ Str.split1 46 x := by simpa [labelsOf] using hp
    have := (h1 x (by simp)).2 p hp'
    rintro rfl
    exact absurd this.1 (by simp)
  rw [if_pos ⟨h1, h2⟩]
  have e1 : (if (∀ a ∈ [x], Net.ArgOK a) ∧ ls.length + totalLength (labelsOf [x]) ≤ 253
      then ls ++ labelsOf [x] else ls) = ls ++ labelsOf [x] :=
    if_pos ⟨by intro a ha; exact h1 a (by simp_all), by omega⟩
  rw [e1, if_pos ⟨fun a ha => h1 a (by simp [ha]), by rw [List.length_append]; omega⟩, happ, List.append_assoc]

example : Net.FQDN.set (some [b!"a"]) [b!"b", b!"c.d"] ≠ some [b!"a"] := by decide +kernel

/-- **C124** for addresses.  Missing: a text that is read as an address takes the place of everything given before
and ends the call. -/
theorem C124_addresses_partial (F : EqualFold) (r : Uri.LDAPURI) (x : Uri.Arg) (xs : List Uri.Arg) :
    ((∀ s u, x = .str s → Uri.parseLDAPURI F.eq s [] ≠ .ok u) →
      r.set F.eq (x :: xs) = (r.set F.eq [x]).set F.eq xs) ∧
    ∀ s u, x = .str s → Uri.parseLDAPURI F.eq s [] = .ok u → r.set F.eq (x :: xs) = some u := by
  constructor
  · intro h
    cases x with
    | part p => cases r <;> rfl
    | str s =>
      cases hs : Uri.parseLDAPURI F.eq s [] with
      | ok u => exact absurd hs (h s u rfl)
      | error e => cases r <;> simp [Uri.LDAPURI.set, Uri.mkURI, Uri.Uri.set, hs]
  · rintro s u rfl hs
    cases r <;> simp [Uri.LDAPURI.set, Uri.mkURI, Uri.Uri.set, hs]

example : (Uri.parseLDAPURI EqualFold.ref.eq b!"ldap:///cn=a" []).toOption.isSome = true ∧
    (Uri.parseLDAPURI EqualFold.ref.eq b!"cn=a" []).toOption.isSome = false := by decide +kernel

/-! ## What fails -/

/-- **C124** fails.  An empty text among the names of a list hides what follows.  So does a value that is no rule in
lists of target rules and stacks of bind rules, if a stack ends the call there, a text that cannot be read in
lists of permission bind rules, and an unset permission given to a permission bind rule.  Pairs without keyword and
inheritances without pair forget what the call before gave them.  A host name takes no label of a call with a bad
one.  An address forgets what stands after a text that is an address. -/
theorem C124_counterexample : ¬ BindNamesInTurn ∧ ¬ TargetNamesInTurn ∧ ¬ TargetRulesInTurn ∧ ¬ BindRulesInTurn ∧
    ¬ PermissionRulesInTurn ∧ ¬ PermissionPartsInTurn ∧ ¬ PairsInTurn ∧ ¬ LevelsInTurn ∧ ¬ HostsInTurn ∧
    ¬ AddressesInTurn := by
  refine ⟨fun h => ?_, fun h => ?_, fun h => ?_, fun h => ?_, fun h => ?_, fun h => ?_, fun h => ?_, fun h => ?_,
    fun h => ?_, fun h => ?_⟩
  · have := h EqualFold.ref ⟨BindUDN, []⟩ (.str []) [.str b!"cn=a"]
    exact absurd (congrArg (fun r => r.entries.length) this) (by decide +kernel)
  · have := h EqualFold.ref ⟨Target, []⟩ (.str []) [.str b!"cn=a"]
    exact absurd (congrArg (fun r => r.entries.length) this) (by decide +kernel)
  · have := h true [] .other [.rule ⟨⟨true, b!"target", Eq'⟩, .text b!"x", false, false⟩]
    exact absurd (congrArg List.length this) (by decide +kernel)
  · have := h true [] .other [.ctx (.rules .and false [])]
    exact absurd (congrArg List.length this) (by decide +kernel)
  · have := h PB.plainWorld (fun _ => none) [] (.str []) [.rule (some ⟨some ⟨true, 2#16⟩, some (.rules .and false [])⟩)]
    exact absurd (congrArg List.length this) (by decide +kernel)
  · have := h (fun _ => none) none (.perm none) [.perm (some ⟨true, 2#16⟩)]
    exact absurd (congrArg (fun r => (r.bind PB.Store.p).isSome) this) (by decide +kernel)
  · exact absurd (h ABTV.zero (.str b!"cn") [.str b!"x"]) (by decide +kernel)
  · have := h none (.int 1) [.int 2]
    exact absurd (congrArg (fun r => r.map Levels.Inh.levels) this) (by decide +kernel)
  · exact absurd (h none b!"a" [b!"-"]) (by decide +kernel)
  · have := h EqualFold.ref none (.str b!"ldap:///cn=a") [.part (.scope SearchScope.BaseObject)]
    exact absurd (congrArg (fun r => r.map Uri.Uri.scope) this) (by decide +kernel)

end Verif.InTurn
