import Verif.Model.Reports
import Verif.Props.Builders
import Verif.Props.UriParts
import Verif.Props.DN
import Verif.Props.Oid

/-!
# C94: values report the keyword of their rules; C95: lists hand out makers that fit
-/

namespace Verif.Reports
open Verif Verif.Spec Verif.Attr Verif.DN Verif.Filter Verif.Bind Verif.Rules Verif.Builders

/-- **C94**, the full claim: a value reports a keyword, and it is the keyword of every valid rule
made from the value. -/
def ReportsItsKeyword : Prop :=
  (∀ (S : Shifty 8) (v : BVal) (m : List (Cop × BRule)) (q : Rel) (r : BRule) (k : Option BindKeyword),
    brm S v = some m → (relConst q, r) ∈ m → r.valid = true → bindKeyword v = some k → k = some r.keyword) ∧
  ∀ (v : TVal) (m : List (Cop × TRule)) (q : Rel) (r : TRule),
    trm v = some m → (relConst q, r) ∈ m → r.valid = true → targetKeyword v = some r.keyword

/-- **C94** fails: an attribute reports no keyword, although its rules are `targetattr` rules. -/
theorem C94_counterexample : ¬ ReportsItsKeyword := by
  rintro ⟨-, h⟩
  have := h (.at_ (AT b!"cn")) _ .eq _ rfl ((mem_eqNe _ _ _).2 ⟨Or.inl rfl, rfl⟩) (by decide +kernel)
  cases this

/-- **C94** fails in bind rules: a pair filled from the zero value reports `userattr`, and its rule
has no known keyword; a URI with a name made by `RDN` reports `roledn`, and its rule is a `userdn`
rule; a URI with the empty pair made by `UAT()` reports the keyword of its name, and its rule is a
`userattr` rule. -/
theorem C94_counterexample_bind :
    (∃ m r, brm (.anyRef 8) (.pair setPair) = some m ∧ (relConst .eq, r) ∈ m ∧ r.valid = true ∧
      bindKeyword (.pair setPair) = some (some BindUAT) ∧ r.keyword = 0) ∧
    (∃ u m r, brm (.anyRef 8) (.uri u) = some m ∧ (relConst .eq, r) ∈ m ∧ r.valid = true ∧
      bindKeyword (.uri u) = some (some BindRDN) ∧ r.keyword = BindUDN) ∧
    ∃ u m r, brm (.anyRef 8) (.uri u) = some m ∧ (relConst .eq, r) ∈ m ∧ r.valid = true ∧
      bindKeyword (.uri u) = some (some BindUDN) ∧ r.keyword = BindUAT := by
  refine ⟨?_, ?_, ?_⟩
  · exact ⟨_, _, rfl, (mem_eqNe _ _ _).2 ⟨Or.inl rfl, rfl⟩, by decide +kernel, by decide +kernel, by decide +kernel⟩
  · exact ⟨some { Uri.newURI with dn := RDN b!"cn=x" }, _, _, rfl, (mem_eqNe _ _ _).2 ⟨Or.inl rfl, rfl⟩,
      by decide +kernel, by decide +kernel, by decide +kernel⟩
  · exact ⟨some { Uri.newURI with dn := UDN b!"cn=x", avbt := userOrGroupAttr BindUAT [] }, _, _, rfl,
      (mem_eqNe _ _ _).2 ⟨Or.inl rfl, rfl⟩, by decide +kernel, by decide +kernel, by decide +kernel⟩

theorem bdns_kw {l : DNList.BDNs} {k : BKw} (h : l.kw = bkwConst k) (hk : dnKw k) :
    bdnsKeyword (some l) = some (bkwConst k) := by
  simp only [bdnsKeyword, h]
  rcases hk with rfl | rfl | rfl <;> decide +kernel

theorem tdns_kw {l : DNList.TDNs} {k : TKw} (h : l.kw = tkwConst k) (hk : tdnKw k) :
    tdnsKeyword (some l) = some (tkwConst k) := by
  simp only [tdnsKeyword, h]
  rcases hk with rfl | rfl | rfl <;> decide +kernel

theorem oids_kw {l : Oid.OIDs} {k : TKw} (h : l.kw = tkwConst k) (hk : oidKw k) :
    oidsKeyword (some l) = tkwConst k := by
  simp only [oidsKeyword, Oid.OIDs.kind, h]
  rcases hk with rfl | rfl <;> decide +kernel

/-- The keyword documented for a URI, /repo/uri.go:315-324: that of its pair, or of its name. -/
def uriReports (u : Uri.Uri) (k : BKw) : Prop :=
  if u.avbt.isZero = false then u.avbt.kw = bkwConst k ∧ pairKw k
  else ∃ d, u.dn = some d ∧ d.kw = bkwConst k ∧ dnKw k

/-- The keyword a bind value has to report. -/
def BReports : BVal → BKw → Prop
  | .uri (some u), k => uriReports u k
  | v, k => v.Speaks k

/-- The pair of a URI is set exactly if it has a part; not so for the empty pair made by `UAT()` and
for a pair filled from the zero value. -/
def uriWhole : BVal → Prop
  | .uri (some u) => Uri.HasPart u.avbt ↔ u.avbt.isZero = false
  | _ => True

theorem uri_keyword {u : Uri.Uri} {k : BKw} (hv : u.valid = true) (h : uriReports u k)
    (hp : Uri.HasPart u.avbt ↔ u.avbt.isZero = false) : u.keyword = some (bkwConst k) := by
  rw [Uri.hasPart_iff] at hp
  unfold uriReports at h
  unfold Uri.Uri.keyword
  by_cases hz : u.avbt.isZero = false
  · rw [if_pos hz] at h
    obtain ⟨h1, h2⟩ := h
    simp only [hv, hp.2 hz, h1, Bool.not_true, Bool.not_false, Bool.false_eq_true, if_false, if_true]
    rcases h2 with rfl | rfl <;> rfl
  · rw [if_neg hz] at h
    obtain ⟨d, h1, h2, h3⟩ := h
    have hz' : cellIsZero u.avbt.cell = true := by simpa using mt hp.1 hz
    have hd : d.text.isNone = false := by
      simp only [Uri.Uri.valid, h1, DN.isZero] at hv
      cases ht : d.text with
      | none => rw [ht] at hv; simp at hv
      | some t => rfl
    simp only [hv, hz', h1, DN.keyword, hd, h2, Bool.not_true, Bool.false_eq_true, if_false]
    rcases h3 with rfl | rfl | rfl <;> rfl

/-- **C94**, bind values: a usable value reports the documented keyword, and this is the keyword of
the rules made from it.  Missing: pairs without keyword, URIs whose name is a role or whose pair has
the keyword `groupattr`, which make other rules, and URIs with an empty pair. -/
theorem C94_bind_partial (S : Shifty 8) (v : BVal) (k : BKw) (hv : v.Filled S) (hk : BReports v k)
    (ha : ∀ a, v ≠ .am a) :
    (uriWhole v → bindKeyword v = some (some (bkwConst k))) ∧
    ∀ m q r, brm S v = some m → (relConst q, r) ∈ m → uriFits v → r.keyword = bkwConst k := by
  have rule : v.Speaks k → ∀ m q r, brm S v = some m → (relConst q, r) ∈ m → uriFits v →
      r.keyword = bkwConst k := by
    intro hs m q r hm hq hu
    have h := (C72_bind_partial S v k m hs hv hu hm q r hq).2.1
    rw [BRule.keyword, h]
    exact (matchBKW_iff _ _).2 (by dsimp only; cases k <;> decide)
  cases v with
  | dn d =>
    refine ⟨fun _ => ?_, rule hk⟩
    obtain ⟨n, rfl, hn, hk⟩ := hk
    obtain ⟨n', t, he, ht⟩ := hv
    cases he
    simp [bindKeyword, DN.keyword, ht, hn]
  | dns d =>
    refine ⟨fun _ => ?_, rule hk⟩
    obtain ⟨l, rfl, hn, hk⟩ := hk
    simp only [bindKeyword, bdns_kw hn hk]
  | uri u =>
    obtain ⟨w, n, t, rfl, hn, ht⟩ := hv
    have hw : w.valid = true := by simp [Uri.Uri.valid, hn, DN.isZero, ht]
    refine ⟨fun hp => by simp only [bindKeyword, uri_keyword hw hk hp], fun m q r hm hq hu => ?_⟩
    refine rule ⟨w, rfl, ?_⟩ m q r hm hq hu
    simp only [BReports, uriReports] at hk
    simp only [uriFits] at hu
    unfold uriSpeaks
    by_cases hz : w.avbt.isZero = false
    · rw [if_pos hz] at hk hu ⊢
      rw [hu] at hk
      rcases hk.2 with rfl | rfl
      · rfl
      · exact absurd hk.1 (by decide)
    · rw [if_neg hz] at hk ⊢
      exact hk
  | inh i =>
    refine ⟨fun _ => ?_, rule hk⟩
    obtain ⟨j, rfl, hn, hk⟩ := hk
    obtain ⟨j', he, hc, h0⟩ := hv
    cases he
    have hz : j.abtv.isZero = false := by
      unfold ABTV.isZero
      cases hcell : j.abtv.cell with
      | none => exact absurd hcell hc
      | some c => simp [h0]
    simp only [bindKeyword, Levels.keyword, hz, hn]
    rcases hk with rfl | rfl <;> rfl
  | pair a =>
    refine ⟨fun _ => ?_, rule hk⟩
    simp only [bindKeyword, ABTV.keyword, hk.1]
    rcases hk.2 with rfl | rfl <;> rfl
  | ip a => exact ⟨fun _ => by cases hk; rfl, rule hk⟩
  | fqdn a => exact ⟨fun _ => by cases hk; rfl, rule hk⟩
  | dow a => exact ⟨fun _ => by cases hk; rfl, rule hk⟩
  | tod a => exact ⟨fun _ => by cases hk; rfl, rule hk⟩
  | am a => exact absurd rfl (ha a)
  | ssf a => exact ⟨fun _ => by cases hk; rfl, rule hk⟩

/-- A URI with a `groupattr` pair reports `groupattr`. -/
example : bindKeyword (.uri (some { Uri.newURI with
    dn := UDN b!"cn=x", avbt := ⟨BindGAT, some ⟨some (some b!"manager"), .bt USERDN⟩⟩ })) = some (some BindGAT) :=
  (C94_bind_partial (.anyRef 8) (.uri (some _)) .groupattr ⟨_, _, _, rfl, rfl, rfl⟩
    (by simp only [BReports, uriReports]; rw [if_pos (by decide)]; exact ⟨rfl, Or.inr rfl⟩) (by simp)).1
    ⟨fun _ => rfl, fun _ => ⟨_, rfl, Or.inl (by decide)⟩⟩

/-- **C94**, target values: a value reports the keyword of the rules made from it.  Missing: single
attributes, which report none. -/
theorem C94_target_partial (v : TVal) (k : TKw) (hv : v.Filled) (hk : v.Speaks k) :
    ((∀ a, v ≠ .at_ a) → targetKeyword v = some (tkwConst k)) ∧
    ((∃ a, v = .at_ a) → targetKeyword v = none) ∧
    ∀ m q r, trm v = some m → (relConst q, r) ∈ m → (v.isOp = true → q = .eq) → r.keyword = tkwConst k := by
  have rule : ∀ m q r, trm v = some m → (relConst q, r) ∈ m → (v.isOp = true → q = .eq) →
      r.keyword = tkwConst k := by
    intro m q r hm hq ho
    have h := (C72_target_partial v k m hk hv hm q r hq ho).2.1
    rw [TRule.keyword, h]
    exact (matchTKW_iff _ _).2 (by dsimp only; cases k <;> decide)
  refine ⟨fun ha => ?_, ?_, rule⟩
  · cases v with
    | scope s => cases hk; rfl
    | filter f => cases hk; rfl
    | at_ a => exact absurd rfl (ha a)
    | ats a =>
      obtain ⟨h1, rfl⟩ := hk
      obtain ⟨l, rfl⟩ := Option.isSome_iff_exists.1 h1
      rfl
    | uriAts a => exact absurd hk id
    | oid o =>
      obtain ⟨n, rfl, hn, hk⟩ := hk
      obtain ⟨n', t, he, ht⟩ := hv
      cases he
      simp only [targetKeyword, Oid.keyword, Oid.isZero, ht, hn]
      rcases hk with rfl | rfl <;> simp [tkwConst, hn] <;> decide
    | oids o =>
      obtain ⟨l, rfl, hn, hk⟩ := hk
      simp only [targetKeyword, oids_kw hn hk]
    | dn d =>
      obtain ⟨n, rfl, hn, hk⟩ := hk
      obtain ⟨n', t, he, ht⟩ := hv
      cases he
      simp [targetKeyword, DN.keyword, ht, hn]
    | dns d =>
      obtain ⟨l, rfl, hn, hk⟩ := hk
      simp only [targetKeyword, tdns_kw hn hk]
    | afo a => cases hk; rfl
    | afos a => cases hk; rfl
  · rintro ⟨a, rfl⟩; rfl

example : targetKeyword (.oids (some (Oid.Ctrls (fun a b => a == b) some [.str b!"1.3.6"]))) = some TargetCtrl :=
  (C94_target_partial (.oids _) .targetcontrol (by simp [TVal.Filled]) ⟨_, rfl, by rfl, Or.inl rfl⟩).1 (by simp)

/-- **C94.** The lists of attributes for URIs, from which no rules are made, report
`targetfilter`, and a kind of their own. -/
theorem C94_uri_list (a : ATs) : trm (.uriAts a) = none ∧ targetKeyword (.uriAts a) = some TargetFilter ∧
    targetKind (.uriAts a) = some b!"<uri_search_attributes>" :=
  ⟨rfl, rfl, rfl⟩

/-- **C94** for values that are not set: they report no keyword. -/
theorem C94_unset :
    (∀ v ∈ [BVal.dn none, .dns none, .uri none], bindKeyword v = some none) ∧
      (∀ v ∈ [TVal.oid none, .dn none, .dns none], targetKeyword v = none) ∧
      (∀ v ∈ [TVal.ats none, .oids none], ∃ k, targetKeyword v = some k ∧ ∀ t : TKw, k ≠ tkwConst t) := by
  refine ⟨?_, ?_, ?_⟩
  · simp only [List.mem_cons, List.not_mem_nil, or_false]
    rintro v (rfl | rfl | rfl) <;> rfl
  · simp only [List.mem_cons, List.not_mem_nil, or_false]
    rintro v (rfl | rfl | rfl) <;> rfl
  · simp only [List.mem_cons, List.not_mem_nil, or_false]
    rintro v (rfl | rfl)
    · exact ⟨_, rfl, fun t => by cases t <;> decide +kernel⟩
    · exact ⟨_, rfl, fun t => by cases t <;> decide +kernel⟩

/-- **C94**, `Kind` of target values: attribute lists, object identifiers and filter operations give the
name of the keyword of their rules. -/
theorem C94_kind (v : TVal) (k : TKw) (hv : v.Filled) (hk : v.Speaks k) :
    ((∃ a, v = .ats a) ∨ (∃ o, v = .oid o) ∨ (∃ o, v = .oids o) ∨ (∃ o, v = .afo o) ∨ (∃ o, v = .afos o) →
      targetKind v = some k.name) ∧
    ((∃ d, v = .dn d) → targetKind v = some b!"target") ∧ ((∃ a, v = .at_ a) → targetKind v = some []) := by
  refine ⟨?_, ?_, ?_⟩
  · rintro (⟨a, rfl⟩ | ⟨o, rfl⟩ | ⟨o, rfl⟩ | ⟨o, rfl⟩ | ⟨o, rfl⟩)
    · obtain ⟨h1, rfl⟩ := hk
      obtain ⟨l, rfl⟩ := Option.isSome_iff_exists.1 h1
      rfl
    · obtain ⟨n, rfl, hn, hk⟩ := hk
      obtain ⟨n', t, he, ht⟩ := hv
      cases he
      simp only [targetKind, Oid.kind, Oid.isZero, ht, Option.map_some, hn, reduceCtorEq, if_false]
      rcases hk with rfl | rfl <;> decide +kernel
    · obtain ⟨l, rfl, hn, hk⟩ := hk
      simp only [targetKind, Oid.OIDs.kind, hn]
      rcases hk with rfl | rfl <;> decide +kernel
    · cases hk; rfl
    · cases hk; rfl
  · rintro ⟨d, rfl⟩; rfl
  · rintro ⟨d, rfl⟩; rfl

/-- **C94**, `Kind` of unset values. -/
theorem C94_kind_unset (k : Option TargetKeyword) :
    targetKind (.ats none) = some b!"<uninitialized>" ∧ targetKind (.oids none) = some b!"<uninitialized>" ∧
    targetKind (.oid (k.map (⟨·, none⟩))) = some b!"<uninitialized>" := by
  cases k <;> exact ⟨rfl, rfl, rfl⟩

example : targetKind (.oid (some ⟨TargetExtOp, some b!"1.3.6"⟩)) = some b!"extop" :=
  (C94_kind (.oid _) .extop ⟨_, _, rfl, rfl⟩ ⟨_, rfl, rfl, Or.inr rfl⟩).1 (Or.inr (Or.inl ⟨_, rfl⟩))

/-- **C94**, `Kind` of bind values: names say `bind`, address lists `ip`, and URIs the name of the
keyword they report. -/
theorem C94_kind_bind (d : BindDN) (a : Net.IPAddr) (u : Uri.LDAPURI) :
    bindKind (.dn d) = some b!"bind" ∧ bindKind (.ip a) = some b!"ip" ∧
    (∀ k : BKw, bindKeyword (.uri u) = some (some (bkwConst k)) → bindKind (.uri u) = some k.name) ∧
    (bindKeyword (.uri u) = some none → bindKind (.uri u) = some []) := by
  refine ⟨rfl, rfl, fun k h => ?_, fun h => ?_⟩
  · simp only [bindKind, h]
    cases k <;> decide +kernel
  · simp only [bindKind, h]

/-! ## C95 -/

theorem bdnsF_eq {l : DNList.BDNs} {k : BKw} (h : l.kw = bkwConst k) (hk : dnKw k) (s : Str) :
    bdnsF (some l) s = some (newDN s l.kw) := by
  rw [bdnsF, bdns_kw h hk, h]
  rcases hk with rfl | rfl | rfl <;> rfl

theorem tdnsF_eq {l : DNList.TDNs} {k : TKw} (h : l.kw = tkwConst k) (hk : tdnKw k) (s : Str) :
    tdnsF (some l) s = some (newDN s l.kw) := by
  rw [tdnsF, tdns_kw h hk, h]
  rcases hk with rfl | rfl | rfl <;> rfl

theorem newDN_text (s : Str) (kw : UInt8) :
    (newDN s kw).kw = kw ∧ ((newDN s kw).text = none ↔ s = []) := by
  unfold newDN
  cases s <;> simp

/-- **C95** for names: what the function given out by a list makes of a text has the keyword of
the list, and pushing it is the same as pushing the text. -/
theorem C95_names (E : EqualFold) :
    (∀ (l : DNList.BDNs) (k : BKw), l.kw = bkwConst k → dnKw k → ∀ s xs,
      (∃ d, bdnsF (some l) s = some d ∧ d.kw = bkwConst k ∧ (d.text = none ↔ s = [])) ∧
      l.push E.eq (.dn (bdnsF (some l) s) :: xs) = l.push E.eq (.str s :: xs)) ∧
    (∀ (l : DNList.TDNs) (k : TKw), l.kw = tkwConst k → tdnKw k → ∀ s xs,
      (∃ d, tdnsF (some l) s = some d ∧ d.kw = tkwConst k ∧ (d.text = none ↔ s = [])) ∧
      l.push E.eq (.dn (tdnsF (some l) s) :: xs) = l.push E.eq (.str s :: xs)) := by
  refine ⟨fun l k h hk s xs => ?_, fun l k h hk s xs => ?_⟩
  · rw [bdnsF_eq h hk]
    refine ⟨⟨_, rfl, (newDN_text s _).1.trans h, (newDN_text s _).2⟩, ?_⟩
    simp only [DNList.BDNs.push, DNList.pushLoop, DNList.pushBindArg, DN.isZero, DN.keyword]
    cases s <;> simp [newDN]
  · rw [tdnsF_eq h hk]
    refine ⟨⟨_, rfl, (newDN_text s _).1.trans h, (newDN_text s _).2⟩, ?_⟩
    simp only [DNList.TDNs.push, DNList.pushTargetLoop, DNList.pushTargetArg, DN.isZero, DN.keyword]
    cases s <;> simp [newDN]

example : (DNList.UDNs EqualFold.ref.eq []).push EqualFold.ref.eq
      [.dn (bdnsF (some (DNList.UDNs EqualFold.ref.eq [])) b!"uid=a")] =
    (DNList.UDNs EqualFold.ref.eq []).push EqualFold.ref.eq [.str b!"uid=a"] :=
  ((C95_names _).1 _ .userdn rfl (Or.inl rfl) _ []).2

/-- **C95** for object identifiers. -/
theorem C95_identifiers (E : EqualFold) (R : Oid.DotReader) (l : Oid.OIDs) (k : TKw)
    (h : l.kw = tkwConst k) (hk : oidKw k) (s : Str) (xs : List Oid.Arg) :
    (∀ t, R.read s = some t → oidsF R.read (some l) [.str s] = some ⟨tkwConst k, some t⟩) ∧
    (R.read s = none → Oid.isZero (oidsF R.read (some l) [.str s]) = true) ∧
    l.push E.eq R.read (.oid (oidsF R.read (some l) [.str s]) :: xs) = l.push E.eq R.read (.str s :: xs) := by
  have e : oidsF R.read (some l) [.str s] = some (Oid.newObjectID R.read (tkwConst k) [.str s]).1 := by
    rw [oidsF, oids_kw h hk]
    rcases hk with rfl | rfl <;> rfl
  refine ⟨fun t ht => ?_, fun hn => ?_, ?_⟩
  · rw [e]; simp [Oid.newObjectID, Oid.setOne, ht]
  · rw [e]; simp [Oid.newObjectID, Oid.setOne, hn, Oid.isZero]
  · have e' : l.F R.read [.str s] = oidsF R.read (some l) [.str s] := by
      rw [e, Oid.OIDs.F, h]
      rcases hk with rfl | rfl <;> rfl
    simp only [Oid.OIDs.push, List.foldl_cons, Oid.OIDs.pushOne, e']

example : oidsF Oid.plainReader.read (some (Oid.ExtOps EqualFold.ref.eq Oid.plainReader.read [])) [.str b!"1.3.6"] =
    some ⟨TargetExtOp, some b!"1.3.6"⟩ :=
  (C95_identifiers EqualFold.ref Oid.plainReader _ .extop rfl (Or.inr rfl) _ []).1 _ (by decide +kernel)

/-- **C95** for uninitialized lists: user names, targets and controls are made. -/
theorem C95_default (R : Oid.DotReader) (s : Str) (h : s ≠ []) :
    (∃ t, bdnsF none s = some ⟨bkwConst .userdn, some t⟩) ∧
    (∃ t, tdnsF none s = some ⟨tkwConst .target, some t⟩) ∧
    ∀ t, R.read s = some t → oidsF R.read none [.str s] = some ⟨tkwConst .targetcontrol, some t⟩ := by
  cases s with
  | nil => exact absurd rfl h
  | cons c s =>
    refine ⟨⟨_, rfl⟩, ⟨_, rfl⟩, fun t ht => ?_⟩
    have : oidsF R.read none [.str (c :: s)] = Oid.Ctrl R.read [.str (c :: s)] := rfl
    rw [this]
    simp [Oid.Ctrl, Oid.newObjectID, Oid.setOne, ht]
    rfl

end Verif.Reports
