import Verif.Props.BindValues
import Verif.Props.Target
import Verif.Props.Sec
import Verif.Props.Ins

/-!
# Values that are not set, and the texts they print as (C129)
-/

namespace Verif.Placeholders
open Verif Verif.Spec Verif.Bind Verif.Rules Verif.Levels Verif.Attr

/-- The texts printed for values that are not set, as the constants of the code have them:
/repo/attr.go:12-13, /repo/dn.go:45-46, /repo/ins.go:79, /repo/kw.go:51-53, /repo/levels.go:428,
/repo/net.go:33 and 286, /repo/oid.go:7, /repo/pb.go:13, /repo/rights.go:26, /repo/time.go:27 and
380, /repo/uri.go:10, and `<invalid_operator>` of go-stackage, /repo/cop.go:18. -/
def placeholders : List Str :=
  [b!"<invalid_attribute_type>", b!"<invalid_attribute_value>", b!"<invalid_bind_distinguished_name>",
   b!"<invalid_target_distinguished_name>", b!"<invalid_aci>", b!"<invalid_bind_type>",
   b!"<invalid_bind_keyword>", b!"<invalid_target_keyword>", b!"<invalid_inheritance>",
   b!"<invalid_address_list>", b!"<invalid_fqdn_or_label>", b!"<invalid_object_identifier>",
   b!"<invalid_pbrule>", b!"<invalid_permission>", b!"<invalid_days>", b!"<invalid_timeofday>",
   b!"<invalid_ldap_uri>", b!"<invalid_operator>"]

/-- **C129**, what is printed: a value that is not set prints as the text that names its kind. -/
theorem C129_texts :
    AttributeType.string none = b!"<invalid_attribute_type>" ∧
    AttributeValue.string none = b!"<invalid_attribute_value>" ∧
    (∀ k, DN.BindDN.string none = b!"<invalid_bind_distinguished_name>" ∧
      DN.BindDN.string (some ⟨k, none⟩) = b!"<invalid_bind_distinguished_name>" ∧
      DN.TargetDN.string none = b!"<invalid_target_distinguished_name>" ∧
      DN.TargetDN.string (some ⟨k, none⟩) = b!"<invalid_target_distinguished_name>") ∧
    (∀ w, Ins.string w none = b!"<invalid_aci>") ∧
    (∀ k : BindType, 5 < k → BindType.string k = b!"<invalid_bind_type>") ∧
    (∀ k : BindKeyword, 11 < k → BindKeyword.string k = b!"<invalid_bind_keyword>") ∧
    (∀ k : TargetKeyword, 9 < k → TargetKeyword.string k = b!"<invalid_target_keyword>") ∧
    BindType.string 0 = b!"<invalid_bind_type>" ∧
    BindKeyword.string 0 = b!"<invalid_bind_keyword>" ∧
    TargetKeyword.string 0 = b!"<invalid_target_keyword>" ∧
    (∀ S, Levels.string S none = b!"<invalid_inheritance>") ∧
    Net.IPAddr.string none = b!"<invalid_address_list>" ∧
    Net.FQDN.string none = b!"<invalid_fqdn_or_label>" ∧
    Oid.string none = b!"<invalid_object_identifier>" ∧
    (∀ w, PB.string w none = b!"<invalid_pbrule>") ∧
    (∀ S, Rights.string S none = b!"<invalid_permission>") ∧
    (∀ S, Time.string S none = b!"<invalid_days>") ∧
    Time.TimeOfDay.string none = b!"<invalid_timeofday>" ∧
    (∀ c : Cop, 6 < c → Cop.string c = b!"<invalid_operator>") ∧
    Cop.string 0 = b!"<invalid_operator>" := by
  refine ⟨rfl, rfl, fun k => ⟨rfl, rfl, rfl, rfl⟩, fun _ => rfl, by decide +kernel, by decide +kernel,
    by decide +kernel, by decide, by decide, by decide, fun _ => rfl, rfl, by decide, rfl, fun _ => rfl,
    fun _ => rfl, fun _ => rfl, rfl, by decide +kernel, by decide⟩

/-- Such a value is not set: nothing else of its kind is printed as the same text. -/
example : AttributeType.string (some b!"cn") ≠ AttributeType.string none ∧
    BindKeyword.string 11 ≠ BindKeyword.string 12 := by decide

/-- **C129**, inside another value: the text of a pair whose attribute value was declared and not set
cannot be made, and an inheritance with such a pair prints with the text that package `fmt` puts in
its place. -/
theorem C129_inside (S : Shifty 16) (w : BitVec 16) (k : BindKeyword) (hk : k ≠ 0) (a : AttributeType) :
    ABTV.string ⟨k, some ⟨some a, .av none⟩⟩ = none ∧
    ∃ levels, Levels.string S (some ⟨w, ⟨k, some ⟨some a, .av none⟩⟩⟩) = b!"parent[" ++ levels ++
      b!"].%!s(PANIC=String method: runtime error: invalid memory address or nil pointer dereference)" := by
  refine ⟨rfl, levelsString S w, ?_⟩
  have hz : ABTV.isZero ⟨k, some ⟨some a, .av none⟩⟩ = false := by simpa [ABTV.isZero] using hk
  simp only [Levels.string, hz, Bool.false_eq_true, if_false, ABTV.string, Cell.string, slotString,
    Option.getD_none, fmtPanic, List.append_assoc]
  rfl

example : ∃ levels, Levels.string (.anyRef 16) (some ⟨3, ABTV.set (userOrGroupAttr BindUAT [.at_ (AT b!"manager")])
    [.av none]⟩) = b!"parent[" ++ levels ++
      b!"].%!s(PANIC=String method: runtime error: invalid memory address or nil pointer dereference)" :=
  (C129_inside _ _ BindUAT (by decide) (AT b!"manager")).2

/-! ## Reading -/

/-- What one would have of these texts: no bind rule and no target rule takes one for a value. -/
def PlaceholderRefused : Prop :=
  ∀ (F : EqualFold) (env : Env) (R : Oid.DotReader), Proper env F →
    (∀ p ∈ placeholders, R.read p = none) → ∀ p ∈ placeholders,
      (∀ key, readBind env key [p] = .err) ∧ (∀ key, readTarget F.eq R.read key [p] = .error ())

theorem bare {p : Str} (hp : p ∈ placeholders) : Misc.condenseWHSP p = p ∧ Misc.unquote p = p ∧
    Str.hasPrefix p LocalScheme = false ∧ Str.hasPrefix p b!"parent[" = false ∧ ¬ p.length < 3 ∧
    p.length ≠ 0 := by
  revert p; decide +kernel

theorem inv_days {p : Str} (hp : p ∈ placeholders) :
    (Time.parseLoop (Str.split1 44 (Str.dropSpaces p)) 0#8).isOk = false := by
  revert p; decide +kernel

theorem inv_ip {p : Str} (hp : p ∈ placeholders) : (Net.assertBindIP [p]).isOk = false := by
  revert p; decide +kernel

theorem inv_dns {p : Str} (hp : p ∈ placeholders) :
    (Net.assertBindDNS [p]).toOption = if p = b!"<invalid_fqdn_or_label>" then some (some []) else none := by
  revert p; decide +kernel

theorem inv_pair {p : Str} (hp : p ∈ placeholders) :
    (parseATBTV p [some BindUAT]).isOk = false ∧ (parseATBTV p [some BindGAT]).isOk = false := by
  revert p; decide +kernel

theorem inv_tod {p : Str} (hp : p ∈ placeholders) : (Time.assertBindTimeOfDay [p]).isOk = false := by
  revert p; decide +kernel

theorem inv_ssf {p : Str} (hp : p ∈ placeholders) :
    (Sec.assertBindSecurityStrengthFactor [p]).isOk = false := by
  revert p; decide +kernel

theorem err_of {α : Type} {x : Except Unit α} (h : x.isOk = false) : x = .error () := by
  cases x with
  | ok a => cases h
  | error e => rfl

theorem inv_auth {p : Str} (hp : p ∈ placeholders) (a : Spec.Auth) : Str.eqFold a.name p = false := by
  revert p; cases a <;> decide +kernel

theorem inv_dn {p : Str} (hp : p ∈ placeholders) : DN.chopDNPfx p = p ∧ DN.isInvalidDNSyntax p = false ∧
    Str.containsStr p b!"?" = false := by
  revert p; decide +kernel

theorem inv_scope {p : Str} (hp : p ∈ placeholders) : (SearchScope.assertTargetScope [p]).isOk = false := by
  revert p; decide +kernel

theorem inv_afs {p : Str} (hp : p ∈ placeholders) : (Filter.assertTargetAttrFilters [p]).isOk = false := by
  revert p; decide +kernel

theorem inv_at {p : Str} (hp : p ∈ placeholders) : AttributeType.isZero (AT p) = true := by
  revert p; decide +kernel

/-- **C129** for bind rules; the claim `PlaceholderRefused` holds for every keyword but `userdn`,
`roledn`, `groupdn` and, for one of the texts, `dns`.  Missing from the claim: those four.  The
keywords of distinguished names take every one of the texts, as a name of that text, and `dns` takes
`<invalid_fqdn_or_label>`, as a name of no labels. -/
theorem C129_bind_partial (F : EqualFold) (env : Env) (hP : Proper env F) (p : Str)
    (hp : p ∈ placeholders) (key : BindKeyword) :
    (key ∉ [1, 2, 3] → ¬ (key = 7 ∧ p = b!"<invalid_fqdn_or_label>") → readBind env key [p] = .err) ∧
    (key ∈ [1, 2, 3] → readBind env key [p] = .ok (.dns ⟨key, [.dn (some ⟨key, some p⟩)]⟩)) ∧
    (key = 7 → p = b!"<invalid_fqdn_or_label>" → readBind env key [p] = .ok (.fqdn (some []))) := by
  obtain ⟨hc, hu, hl, hpa, h3, h0⟩ := bare hp
  obtain ⟨hd1, hd2, hd3⟩ := inv_dn hp
  have hdn : ∀ k : BindKeyword, k = 1 ∨ k = 2 ∨ k = 3 →
      readBind env k [p] = .ok (.dns ⟨k, [.dn (some ⟨k, some p⟩)]⟩) := by
    intro k hk
    have hk' : k = BindUDN ∨ k = BindRDN ∨ k = BindGDN := hk
    have hn : DN.newDN p k = ⟨k, some p⟩ := by simp only [DN.newDN, hd1, if_pos h0]
    have hl' : DNList.ugrList env.eq k = ⟨k, []⟩ := by
      rcases hk with rfl | rfl | rfl <;> rfl
    simp only [readBind, if_pos hk', DNList.assertBindUGRDN, hc, hu, if_neg h3, DNList.setBindValues,
      DNList.setBindValue, hl, Bool.false_eq_true, if_false, hd1, hd2, hd3, Bool.not_false,
      Bool.and_self, if_true, hn, hl', DNList.BDNs.push, DNList.pushLoop, DNList.pushBindArg, DN.isZero,
      DN.keyword, Option.isNone_some, beq_self_eq_true, DNList.pushEntry, DNList.containsText, List.map_nil,
      List.any_nil, List.nil_append]
    rfl
  refine ⟨fun hk hf => ?_, fun hk => hdn key (by simpa using hk), ?_⟩
  · have hk1 : ¬ (key = BindUDN ∨ key = BindRDN ∨ key = BindGDN) := by
      intro h
      have h' : key = 1 ∨ key = 2 ∨ key = 3 := h
      exact hk (by simpa using h')
    rw [readBind, if_neg hk1]
    split
    · rw [err_of (inv_ip hp)]; rfl
    split
    · rename_i _ h7
      have := inv_dns hp
      rw [if_neg (fun h => hf ⟨h7, h⟩)] at this
      cases h : Net.assertBindDNS [p] with
      | error e => rfl
      | ok a => rw [h] at this; cases this
    split
    · rename_i hk
      have hpair : parseATBTV p [some key] = .error () := by
        rcases hk with rfl | rfl
        · exact err_of (inv_pair hp).1
        · exact err_of (inv_pair hp).2
      simp only [assertBindUGAttr, hc, hu, hl, hpa, Bool.false_eq_true, if_false, hpair]
      rfl
    split
    · simp only [Time.assertBindDayOfWeek, hc, hu, Time.parseDoW, err_of (inv_days hp)]; rfl
    split
    · rw [err_of (inv_tod hp)]; rfl
    split
    · have : Sec.assertBindAuthenticationMethod env.names env.names' env.low [p] = .error () := by
        cases h : Sec.assertBindAuthenticationMethod env.names env.names' env.low [p] with
        | error e => rfl
        | ok a =>
          obtain ⟨t, b, ht, hb, _⟩ := (Sec.C28_bind_value _ _ hP.2.1 hP.2.2 _ _ _).1 h
          rw [inside_iff, hc, hu] at ht
          subst ht
          rw [inv_auth hp] at hb; cases hb
      rw [this]; rfl
    split
    · rw [err_of (inv_ssf hp)]; rfl
    rfl
  · rintro rfl rfl
    have := inv_dns hp
    rw [if_pos rfl] at this
    cases h : Net.assertBindDNS [b!"<invalid_fqdn_or_label>"] with
    | error e => rw [h] at this; cases this
    | ok a =>
      rw [h] at this
      injection this with this
      subst this
      have hr : readBind env 7 [b!"<invalid_fqdn_or_label>"] =
          (Outcome.ofExcept (Net.assertBindDNS [b!"<invalid_fqdn_or_label>"])).map .fqdn := rfl
      rw [hr, h]
      rfl

/-- **C129** for target rules; the claim `PlaceholderRefused` holds for every keyword but `target`,
`target_to`, `target_from` and `targetfilter`.  Missing from the claim: those four, which take every
one of the texts. -/
theorem C129_target_partial (F : EqualFold) (R : Oid.DotReader) (hR : ∀ p ∈ placeholders, R.read p = none)
    (p : Str) (hp : p ∈ placeholders) (key : TargetKeyword) :
    (key ∉ [1, 2, 5, 7] → readTarget F.eq R.read key [p] = .error ()) ∧
    (key ∈ [1, 2, 5] → readTarget F.eq R.read key [p] = .ok (.dns ⟨key, [some ⟨key, some p⟩]⟩)) ∧
    (key = 7 → readTarget F.eq R.read key [p] = .ok (.filter (some p))) := by
  obtain ⟨hc, hu, hl, hpa, h3, h0⟩ := bare hp
  obtain ⟨hd1, hd2, hd3⟩ := inv_dn hp
  refine ⟨fun hk => ?_, fun hk => ?_, ?_⟩
  · rw [readTarget]
    split
    · rw [err_of (inv_scope hp)]; rfl
    split
    · rw [err_of (inv_afs hp)]; rfl
    split
    · rename_i h; exact absurd (show key ∈ [1, 2, 5, 7] by rw [h]; decide) hk
    split
    · simp only [assertTargetAttributes, targetAttrsLoop, List.length_nil, hc, hu, if_neg h0,
        inv_at hp, if_true]
      rfl
    split
    · rename_i h
      simp only [Oid.assertTargetOID, Oid.OIDs.setValues, Oid.newObjectID, List.foldl, Oid.setOne, hR p hp,
        Option.isSome_none, Bool.false_eq_true, if_false, List.length_cons, List.length_nil]
      rcases h with rfl | rfl <;> rfl
    split
    · rename_i h
      exact absurd (show key ∈ [1, 2, 5, 7] by rcases h with rfl | rfl | rfl <;> decide) hk
    rfl
  · have hn : DN.newDN p key = ⟨key, some p⟩ := by simp only [DN.newDN, hd1, if_pos h0]
    have hk : key = 1 ∨ key = 2 ∨ key = 5 := by simpa using hk
    have hl' : tfdnList key = ⟨key, []⟩ := by
      rcases hk with rfl | rfl | rfl <;> rfl
    have hr : readTarget F.eq R.read key [p] = (assertTargetTFDN F.eq [p] key).map .dns := by
      rcases hk with rfl | rfl | rfl <;> rfl
    rw [hr]
    simp only [assertTargetTFDN, List.length_cons, List.length_nil, hl', DNList.setTargetValues, hc, hd1, hd2,
      Bool.false_eq_true, if_false, hn, DNList.TDNs.push, DNList.pushTargetLoop, DNList.pushTargetArg, DN.isZero,
      DN.keyword, Option.isNone_some, beq_self_eq_true, Bool.not_false, Bool.and_self, if_true,
      DNList.pushTargetEntry, DNList.containsText, List.map_nil, List.any_nil, List.nil_append]
    rfl
  · rintro rfl
    have hr : readTarget F.eq R.read 7 [p] = (assertTargetFilter [p]).map .filter := rfl
    rw [hr]
    simp only [assertTargetFilter, hc, hu, if_neg h3]
    rfl

example : readTarget Str.eqFold Oid.plainReader.read 3 [b!"<invalid_attribute_type>"] = .error () ∧
    readBind plainEnv 6 [b!"<invalid_address_list>"] = .err :=
  ⟨(C129_target_partial .ref Oid.plainReader (by decide +kernel) _ (by decide) _).1 (by decide),
   (C129_bind_partial .ref plainEnv plain_proper _ (by decide) _).1 (by decide) (by decide)⟩

/-- **C129** fails: the text printed for a name that is not set is taken for a name. -/
theorem C129_counterexample : ¬ PlaceholderRefused := by
  intro h
  have := (h .ref plainEnv Oid.plainReader plain_proper (by decide +kernel) b!"<invalid_fqdn_or_label>"
    (by decide)).1 7
  rw [(C129_bind_partial .ref plainEnv plain_proper _ (by decide) 7).2.2 rfl rfl] at this
  cases this

end Verif.Placeholders
