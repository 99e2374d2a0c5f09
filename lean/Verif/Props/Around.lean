import Verif.Props.Bind
import Verif.Props.Target
import Verif.Lemmas.Inside
import Verif.Lemmas.Str

/-!
# White space around values: property C136
-/

namespace Verif.Around
open Verif Verif.Spec Verif.Misc Verif.Levels

/-- The second text is the first with white space around it. -/
def Padded (s t : Str) : Prop := ∃ l r, Spaces l ∧ Spaces r ∧ t = l ++ s ++ r

/-- The second list is the first with white space around its texts. -/
def AllPadded : List Str → List Str → Prop
  | [], [] => True
  | s :: x, t :: y => Padded s t ∧ AllPadded x y
  | _, _ => False

theorem Padded.refl (s : Str) : Padded s s := ⟨[], [], .nil, .nil, by simp⟩

theorem Padded.trim {s t : Str} (h : Padded s t) : Str.trimSpace t = Str.trimSpace s := by
  obtain ⟨l, r, hl, hr, rfl⟩ := h
  obtain ⟨⟨l', r', e, hl', hr'⟩, h1, h2⟩ := (trimmed_iff s _).2 rfl
  refine (trimmed_iff _ _).1 ⟨⟨l ++ l', r' ++ r, ?_, hl.append hl', hr'.append hr⟩, h1, h2⟩
  conv => lhs; rw [e]
  simp

theorem Padded.condense {s t : Str} (h : Padded s t) : condenseWHSP t = condenseWHSP s := by
  simp only [condenseWHSP, h.trim]

theorem AllPadded.length {x y : List Str} (h : AllPadded x y) : y.length = x.length := by
  induction x generalizing y with
  | nil => cases y <;> simp_all [AllPadded]
  | cons s x ih =>
    cases y with
    | nil => simp [AllPadded] at h
    | cons t y => simp [ih h.2]

/-! ## Splitting and counting -/

theorem spaces_byte {l : Str} (h : Spaces l) : ∀ c ∈ l, c < 33 ∨ 128 ≤ c := by
  induction h with
  | nil => simp
  | cons a s ha _ ih =>
    intro c hc
    rcases List.mem_append.1 hc with hc | hc
    · cases ha with
      | ascii a h => simp only [List.mem_singleton] at hc; subst hc; rcases h with rfl | rfl | rfl | rfl | rfl | rfl <;> decide
      | two b h => simp at hc; rcases hc with rfl | rfl
                   · decide
                   · rcases h with rfl | rfl <;> decide
      | ogham => simp at hc; rcases hc with rfl | rfl | rfl <;> decide
      | general b h => 
        have key : ∀ b : Byte, (0x80 ≤ b ∧ b ≤ 0x8A ∨ b = 0xA8 ∨ b = 0xA9 ∨ b = 0xAF) → b < 33 ∨ 128 ≤ b := by decide +kernel
        simp at hc; rcases hc with rfl | rfl | rfl
        · decide
        · decide
        · exact key _ h
      | math => simp at hc; rcases hc with rfl | rfl | rfl <;> decide
      | ideographic => simp at hc; rcases hc with rfl | rfl <;> decide
    · exact ih c hc

theorem spaces_not_mem {l : Str} (h : Spaces l) {c : Byte} (hc : 33 ≤ c ∧ c < 128) : c ∉ l := by
  intro hm
  have : ∀ c : Byte, (33 ≤ c ∧ c < 128) → ¬ (c < 33 ∨ 128 ≤ c) := by decide +kernel
  exact this c hc (spaces_byte h c hm)

theorem AllPadded.refl (x : List Str) : AllPadded x x := by
  induction x with
  | nil => trivial
  | cons s x ih => exact ⟨.refl s, ih⟩

theorem split_right {c : Byte} {r : Str} (hr : Spaces r) (hc : c ∉ r) (x : Str) :
    ∀ p l, Str.split1 c x = p :: l → ∃ q m, Str.split1 c (x ++ r) = q :: m ∧ (∃ r', Spaces r' ∧ q = p ++ r') ∧ AllPadded l m := by
  induction x with
  | nil =>
    intro p l h
    simp only [Str.split1, List.cons.injEq] at h
    obtain ⟨rfl, rfl⟩ := h
    exact ⟨r, [], by rw [List.nil_append, Str.split1_of_not_mem hc], ⟨r, hr, rfl⟩, trivial⟩
  | cons a x ih =>
    intro p l h
    rw [Str.split1] at h
    rw [List.cons_append, Str.split1]
    obtain ⟨p', l', e⟩ := List.exists_cons_of_ne_nil (Str.split1_ne_nil c x)
    obtain ⟨q, m, e', ⟨r', hr', hq⟩, hm⟩ := ih p' l' e
    split at h
    · simp only [List.cons.injEq] at h
      obtain ⟨rfl, rfl⟩ := h
      refine ⟨[], _, by rw [if_pos ‹_›], ⟨[], .nil, rfl⟩, ?_⟩
      rw [e, e']
      exact ⟨⟨[], r', .nil, hr', by simp [hq]⟩, hm⟩
    · rw [e] at h
      simp only [Str.consHead, List.cons.injEq] at h
      obtain ⟨rfl, rfl⟩ := h
      exact ⟨a :: q, m, by rw [if_neg ‹_›, e']; rfl, ⟨r', hr', by simp [hq]⟩, hm⟩

theorem split_padded {c : Byte} (hc : 33 ≤ c ∧ c < 128) {s t : Str} (h : Padded s t) :
    AllPadded (Str.split1 c s) (Str.split1 c t) := by
  obtain ⟨l, r, hl, hr, rfl⟩ := h
  obtain ⟨p, k, e⟩ := List.exists_cons_of_ne_nil (Str.split1_ne_nil c s)
  obtain ⟨q, m, e', ⟨r', hr', hq⟩, hm⟩ := split_right hr (spaces_not_mem hr hc) s p k e
  have left : ∀ l : Str, c ∉ l → Str.split1 c (l ++ (s ++ r)) = (l ++ q) :: m := by
    intro l
    induction l with
    | nil => intro _; simpa using e'
    | cons a l ih =>
      intro hl
      simp only [List.mem_cons, not_or] at hl
      rw [List.cons_append, Str.split1, if_neg (fun h => hl.1 h.symm), ih hl.2]; rfl
  rw [List.append_assoc, left l (spaces_not_mem hl hc), e]
  exact ⟨⟨l, r', hl, hr', by simp [hq]⟩, hm⟩

theorem prefix_right {p r : Str} (hr : ∀ c ∈ r, c ∉ p) (x : Str) : Str.hasPrefix (x ++ r) p = Str.hasPrefix x p := by
  induction x generalizing p with
  | nil =>
    cases p with
    | nil => simp [Str.hasPrefix]
    | cons b p =>
      cases r with
      | nil => rfl
      | cons a r =>
        have := hr a (by simp)
        simp only [List.mem_cons, not_or] at this
        simp [Str.hasPrefix, this.1]
  | cons a x ih =>
    cases p with
    | nil => rfl
    | cons b p =>
      simp only [List.cons_append, Str.hasPrefix]
      rw [ih (fun c hc hp => hr c hc (by simp [hp]))]

theorem count_padded {p : Str} (hp : ∀ c ∈ p, 33 ≤ c ∧ c < 128) (hn : p ≠ []) {s t : Str} (h : Padded s t) :
    Filter.countStr t p = Filter.countStr s p := by
  obtain ⟨l, r, hl, hr, rfl⟩ := h
  have no : ∀ {l : Str}, Spaces l → ∀ c ∈ l, c ∉ p := fun hl c hc hcp => spaces_not_mem hl (hp c hcp) hc
  obtain ⟨b, p', rfl⟩ := List.exists_cons_of_ne_nil hn
  have stop : ∀ a t, a ∉ b :: p' → Str.hasPrefix (a :: t) (b :: p') = false := by
    intro a t h
    simp only [List.mem_cons, not_or] at h
    simp [Str.hasPrefix, h.1]
  have zero : ∀ (r : Str), (∀ c ∈ r, c ∉ b :: p') → ∀ n, Filter.countGo (b :: p') n r = 0 := by
    intro r
    induction r with
    | nil => intro _ n; cases n <;> rfl
    | cons a r ih =>
      intro hr n
      have ih := ih (fun c hc => hr c (by simp [hc]))
      cases n with
      | zero => rw [Filter.countGo, stop _ _ (hr a (by simp))]; simpa using ih 0
      | succ n => exact ih n
  have right : ∀ (s : Str) n, Filter.countGo (b :: p') n (s ++ r) = Filter.countGo (b :: p') n s := by
    intro s
    induction s with
    | nil => intro n; rw [List.nil_append, zero r (no hr)]; cases n <;> rfl
    | cons a s ih =>
      intro n
      cases n with
      | succ n => exact ih n
      | zero =>
        rw [List.cons_append, Filter.countGo, Filter.countGo, ih, ih, ← List.cons_append, prefix_right (no hr)]
  have left : ∀ (l : Str), (∀ c ∈ l, c ∉ b :: p') → ∀ s, Filter.countGo (b :: p') 0 (l ++ s) = Filter.countGo (b :: p') 0 s := by
    intro l
    induction l with
    | nil => intro _ s; rfl
    | cons a l ih =>
      intro hl s
      rw [List.cons_append, Filter.countGo, stop _ _ (hl a (by simp))]
      simpa using ih (fun c hc => hl c (by simp [hc])) s
  rw [Filter.countStr, Filter.countStr, List.append_assoc, left l (no hl), right]

/-! ## The values of bind rules -/

/-- The claim for bind rules. -/
def BindPadded : Prop :=
  ∀ (env : Bind.Env) (k : BindKeyword) (x y : List Str), AllPadded x y → Bind.readBind env k y = Bind.readBind env k x

theorem ask : (63 : Byte) ≥ 33 ∧ (63 : Byte) < 128 := by decide

theorem contains_ask (s : Str) : Str.containsStr s b!"?" = decide ((63 : Byte) ∈ s) := by
  rw [Bool.eq_iff_iff, decide_eq_true_iff]
  exact DN.containsStr1 s 63

theorem no_uri {s : Str} (h : ¬ (b!"ldap:///" <+: s ∧ (63 : Byte) ∈ s)) :
    (Str.hasPrefix s LocalScheme && Str.containsStr s b!"?") = false := by
  rw [Bool.eq_false_iff]
  intro h'
  rw [Bool.and_eq_true] at h'
  refine h ⟨?_, (DN.containsStr1 s 63).1 h'.2⟩
  obtain ⟨r, e⟩ := Str.hasPrefix_iff.1 h'.1
  exact ⟨r, e.symm⟩

theorem no_uri_padded {s t : Str} (h : ¬ (b!"ldap:///" <+: s ∧ (63 : Byte) ∈ s)) (ht : Padded s t) :
    (Str.hasPrefix t LocalScheme && Str.containsStr t b!"?") = false := by
  obtain ⟨l, r, hl, hr, rfl⟩ := ht
  cases l with
  | cons a l =>
    have : a ≠ 108 := fun e => spaces_not_mem hl (c := 108) (by decide) (by simp [e])
    simp [Str.hasPrefix, LocalScheme, this]
  | nil =>
    have hr' : ∀ c ∈ r, c ∉ LocalScheme := fun c hc hm =>
      spaces_not_mem hr ((by decide +kernel : ∀ c ∈ LocalScheme, 33 ≤ c ∧ c < 128) c hm) hc
    have hn := no_uri h
    rw [contains_ask] at hn
    rw [List.nil_append, prefix_right hr', contains_ask]
    simpa [spaces_not_mem hr ask] using hn

/-- **C136** for bind rules: white space around the values makes no difference.  Missing: names of users,
groups and roles that are URIs, that is begin with `ldap:///` and contain a question mark. -/
theorem C136_bind_partial (env : Bind.Env) (k : BindKeyword) (x y : List Str) (h : AllPadded x y)
    (hk : k = BindUDN ∨ k = BindRDN ∨ k = BindGDN → ∀ s ∈ x, ¬ (b!"ldap:///" <+: s ∧ (63 : Byte) ∈ s)) :
    Bind.readBind env k y = Bind.readBind env k x := by
  have names : (∀ s ∈ x, ¬ (b!"ldap:///" <+: s ∧ (63 : Byte) ∈ s)) → DNList.assertBindUGRDN env.eq y k = DNList.assertBindUGRDN env.eq x k := by
    intro hq
    have loop : ∀ (x y : List Str), AllPadded x y → (∀ s ∈ x, ¬ (b!"ldap:///" <+: s ∧ (63 : Byte) ∈ s)) → ∀ r,
        DNList.setBindValues env.eq r k y = DNList.setBindValues env.eq r k x := by
      intro x
      induction x with
      | nil => intro y h _ r; cases y <;> simp_all [AllPadded]
      | cons s x ih =>
        intro y h hq r
        cases y with
        | nil => simp [AllPadded] at h
        | cons t y =>
          obtain ⟨h1, h2⟩ := h
          have ih := ih y h2 (fun s hs => hq s (by simp [hs]))
          have hs := no_uri (hq s (by simp))
          have ht := no_uri_padded (hq s (by simp)) h1
          have e : DNList.setBindValue env.eq r k t = DNList.setBindValue env.eq r k s := by
            simp only [DNList.setBindValue, h1.condense]
            rw [hs, ht]
            simp only [Bool.false_eq_true, if_false]
          simp only [DNList.setBindValues, e, ih]
    match x, y, h with
    | [], [], _ => rfl
    | s :: x, t :: y, h =>
      simp only [DNList.assertBindUGRDN, h.1.condense]
      rw [loop (s :: x) (t :: y) h hq]
  have one : ∀ {α : Type} (g : List Str → α), (∀ s t, Padded s t → g [t] = g [s]) →
      (∀ x y : List Str, x.length ≠ 1 → y.length ≠ 1 → g x = g y) → g y = g x := by
    intro α g h1 h2
    match x, y, h with
    | [], [], _ => rfl
    | [s], [t], h => exact h1 s t h.1
    | s :: s' :: l, t :: t' :: m, _ => exact h2 _ _ (by simp) (by simp)
  have fin : ∀ {α : Type} {e : α} (g : List Str → α), (∀ s t, Padded s t → g [t] = g [s]) → (g [] = e) →
      (∀ a b l, g (a :: b :: l) = e) → g y = g x := by
    intro α e g h1 h2 h3
    refine one g h1 (fun x y hx hy => ?_)
    have : ∀ x : List Str, x.length ≠ 1 → g x = e := by
      intro x hx
      match x, hx with
      | [], _ => exact h2
      | a :: b :: l, _ => exact h3 a b l
    rw [this x hx, this y hy]
  have e1 : Net.assertBindIP y = Net.assertBindIP x :=
    fin (e := .error ()) _ (fun s t h => by simp only [Net.assertBindIP, h.condense]) rfl (fun _ _ _ => rfl)
  have e2 : Net.assertBindDNS y = Net.assertBindDNS x :=
    fin (e := .error ()) _ (fun s t h => by simp only [Net.assertBindDNS, h.condense]) rfl (fun _ _ _ => rfl)
  have e3 : ∀ u : Str → BindKeyword → Except Unit Uri.Uri, assertBindUGAttr u y k = assertBindUGAttr u x k := fun u =>
    fin (e := .err) (assertBindUGAttr u · k) (fun s t h => by simp only [assertBindUGAttr, h.condense]) rfl (fun _ _ _ => rfl)
  have e4 : Time.assertBindDayOfWeek env.shifty y = Time.assertBindDayOfWeek env.shifty x :=
    fin (e := .error ()) _ (fun s t h => by simp only [Time.assertBindDayOfWeek, h.condense]) rfl (fun _ _ _ => rfl)
  have e5 : Time.assertBindTimeOfDay y = Time.assertBindTimeOfDay x :=
    fin (e := .error ()) _ (fun s t h => by simp only [Time.assertBindTimeOfDay, h.condense]) rfl (fun _ _ _ => rfl)
  have e6 : Sec.assertBindAuthenticationMethod env.names env.names' env.low y =
      Sec.assertBindAuthenticationMethod env.names env.names' env.low x :=
    fin (e := .error ()) _ (fun s t h => by simp only [Sec.assertBindAuthenticationMethod, h.condense]) rfl (fun _ _ _ => rfl)
  have e7 : Sec.assertBindSecurityStrengthFactor y = Sec.assertBindSecurityStrengthFactor x :=
    fin (e := .error ()) _ (fun s t h => by simp only [Sec.assertBindSecurityStrengthFactor, h.condense]) rfl (fun _ _ _ => rfl)
  unfold Bind.readBind
  by_cases hn : k = BindUDN ∨ k = BindRDN ∨ k = BindGDN
  · rw [if_pos hn, if_pos hn, names (hk hn)]
  · rw [if_neg hn, if_neg hn, e1, e2, e3, e4, e5, e6, e7]

example : AllPadded [b!"\"Sun\""] [b!" \"Sun\" "] := by
  refine ⟨⟨b!" ", b!" ", ?_, ?_, rfl⟩, trivial⟩ <;> exact .cons [32] [] (.ascii 32 (by decide)) .nil

/-! ## The values of target rules -/

/-- **C136** for target rules: white space around the values makes no difference.  Missing: object identifiers,
which are handed to the reader of another package as they are. -/
theorem C136_target_partial (eq : Str → Str → Bool) (read : Str → Option Str) (k : TargetKeyword) (x y : List Str)
    (h : AllPadded x y) (hk : k = TargetCtrl ∨ k = TargetExtOp → ∀ s t, Padded s t → read t = read s) :
    Rules.readTarget eq read k y = Rules.readTarget eq read k x := by
  have fin : ∀ {α : Type} {e : α} (g : List Str → α), (∀ s t, Padded s t → g [t] = g [s]) → (g [] = e) →
      (∀ a b l, g (a :: b :: l) = e) → g y = g x := by
    intro α e g h1 h2 h3
    match x, y, h with
    | [], [], _ => rfl
    | [s], [t], h => exact h1 s t h.1
    | s :: s' :: l, t :: t' :: m, _ => rw [h3, h3]
  have vals : ∀ (x y : List Str), AllPadded x y → ∀ r, Filter.parseVals r y = Filter.parseVals r x := by
    intro x
    induction x with
    | nil => intro y h r; cases y <;> simp_all [AllPadded]
    | cons s x ih =>
      intro y h r
      cases y with
      | nil => simp [AllPadded] at h
      | cons t y => simp only [Filter.parseVals, h.1.condense, ih y h.2]
  have afos : ∀ s t, Padded s t → Filter.parseAFOs t 0 = Filter.parseAFOs s 0 := by
    intro s t h
    have hd : (33 : Byte) ≤ Filter.afosDelim 0 ∧ Filter.afosDelim 0 < 128 := by decide
    have c1 : Filter.countStr t b!"add=" = Filter.countStr s b!"add=" := count_padded (by decide +kernel) (by simp) h
    have c2 : Filter.countStr t b!"delete=" = Filter.countStr s b!"delete=" :=
      count_padded (by decide +kernel) (by simp) h
    simp only [Filter.parseAFOs, c1, c2, (split_padded hd h).length, vals _ _ (split_padded hd h)]
  have e1 : SearchScope.assertTargetScope y = SearchScope.assertTargetScope x :=
    fin (e := .error ()) _ (fun s t h => by simp only [SearchScope.assertTargetScope, h.condense]) rfl (fun _ _ _ => rfl)
  have e2 : Filter.assertTargetAttrFilters y = Filter.assertTargetAttrFilters x :=
    fin (e := .error ()) _ (fun s t h => by simp only [Filter.assertTargetAttrFilters, h.condense, afos s t h]) rfl
      (fun _ _ _ => rfl)
  have e3 : Rules.assertTargetFilter y = Rules.assertTargetFilter x :=
    fin (e := .error ()) _ (fun s t h => by simp only [Rules.assertTargetFilter, h.condense]) rfl (fun _ _ _ => rfl)
  have e4 : Rules.assertTargetAttributes eq y = Rules.assertTargetAttributes eq x := by
    have loop : ∀ s t, Padded s t → ∀ n ex, Rules.targetAttrsLoop eq t ex n = Rules.targetAttrsLoop eq s ex n := by
      intro s t h n
      induction n with
      | zero => intro ex; rfl
      | succ n ih => intro ex; simp only [Rules.targetAttrsLoop, h.condense, ih]
    match x, y, h with
    | [], [], _ => rfl
    | s :: x, t :: y, h => rw [Rules.assertTargetAttributes, Rules.assertTargetAttributes, loop s t h.1, h.2.length]
  have e5 : Rules.assertTargetTFDN eq y k = Rules.assertTargetTFDN eq x k := by
    have loop : ∀ (x y : List Str), AllPadded x y → ∀ r,
        DNList.setTargetValues eq r k y = DNList.setTargetValues eq r k x := by
      intro x
      induction x with
      | nil => intro y h r; cases y <;> simp_all [AllPadded]
      | cons s x ih =>
        intro y h r
        cases y with
        | nil => simp [AllPadded] at h
        | cons t y => simp only [DNList.setTargetValues, h.1.condense, ih y h.2]
    rw [Rules.assertTargetTFDN, Rules.assertTargetTFDN, loop x y h, h.length]
  have e6 : (k = TargetCtrl ∨ k = TargetExtOp) → Oid.assertTargetOID eq read y k = Oid.assertTargetOID eq read x k := by
    intro hc
    have hk := hk hc
    have loop : ∀ (x y : List Str), AllPadded x y → ∀ r : Oid.OIDs, r.setValues eq read k y = r.setValues eq read k x := by
      intro x
      induction x with
      | nil => intro y h r; cases y <;> simp_all [AllPadded]
      | cons s x ih =>
        intro y h r
        cases y with
        | nil => simp [AllPadded] at h
        | cons t y =>
          have e : Oid.newObjectID read k [.str t] = Oid.newObjectID read k [.str s] := by
            have e' : Oid.setOne read (none, true) (.str t) = Oid.setOne read (none, true) (.str s) := by
              rw [Oid.setOne, Oid.setOne, hk s t h.1]
            have e'' : List.foldl (Oid.setOne read) (none, true) [Oid.Arg.str t] =
                List.foldl (Oid.setOne read) (none, true) [Oid.Arg.str s] := e'
            rw [Oid.newObjectID, Oid.newObjectID, e'']
          simp only [Oid.OIDs.setValues, e, ih y h.2]
    simp only [Oid.assertTargetOID, h.length, loop x y h]
  unfold Rules.readTarget
  rw [e1, e2, e3, e4, e5]
  by_cases hc : k = TargetCtrl ∨ k = TargetExtOp
  · rw [e6 hc]
  · simp only [if_neg hc]

example : AllPadded [b!"add=cn:(a=b),delete=sn:(c=d)"] [b!"add=cn:(a=b),delete=sn:(c=d) "] :=
  ⟨⟨[], b!" ", .nil, .cons [32] [] (.ascii 32 (by decide)) .nil, rfl⟩, trivial⟩

/-- The claim for target rules. -/
def TargetPadded : Prop :=
  ∀ (F : EqualFold) (R : Oid.DotReader) (k : TargetKeyword) (x y : List Str), AllPadded x y →
    Rules.readTarget F.eq R.read k y = Rules.readTarget F.eq R.read k x

theorem blank : Spaces b!" " := .cons [32] [] (.ascii 32 (by decide)) .nil

/-- **C136** fails for target rules with a reader of object identifiers that takes no white space. -/
theorem C136_counterexample : ¬ TargetPadded := by
  intro h
  have h := h EqualFold.ref Oid.plainReader TargetCtrl [b!"1.2"] [b!" 1.2"]
    ⟨⟨b!" ", [], blank, .nil, rfl⟩, trivial⟩
  have := congrArg (fun e => match e with | .ok _ => true | .error _ => false) h
  revert this
  decide +kernel

/-- **C136** fails for bind rules: a blank before a URI makes the rule unreadable. -/
theorem C136_counterexample_uri : ¬ BindPadded := by
  intro h
  have h := h Bind.plainEnv BindUDN [b!"ldap:///dc=a??sub?(b=c)"] [b!" ldap:///dc=a??sub?(b=c)"]
    ⟨⟨b!" ", [], blank, .nil, rfl⟩, trivial⟩
  have := congrArg (fun e => match e with | .ok _ => 0 | .err => 1 | .panic => 2) h
  revert this
  decide +kernel

end Verif.Around
