import Verif.Props.Valid
import Verif.Props.Ins
import Verif.Props.Target
import Verif.Props.DN
import Verif.Props.BindText

/-!
# Values with the same text (C140)
-/

namespace Verif.Same
open Verif Verif.Spec Verif.PB Verif.Rules Verif.Valid

/-- The arguments have the same texts, one by one. -/
def Alike {α : Type} (text : α → Str) (l m : List α) : Prop := l.map text = m.map text

theorem alike_cons {α : Type} {text : α → Str} {a : α} {l m : List α} (h : Alike text (a :: l) m) :
    ∃ b m', m = b :: m' ∧ text a = text b ∧ Alike text l m' := by
  cases m with
  | nil => simp [Alike] at h
  | cons b m' =>
    simp only [Alike, List.map_cons, List.cons.injEq] at h
    exact ⟨b, m', rfl, h.1, h.2⟩

theorem alike_nil {α : Type} {text : α → Str} {m : List α} (h : Alike text [] m) : m = [] := by
  simpa [Alike] using h.symm

theorem alike_append {α : Type} {text : α → Str} {l m : List α} {a b : α} (h : Alike text l m) (hab : text a = text b) :
    Alike text (l ++ [a]) (m ++ [b]) := by
  simp only [Alike] at h
  simp [Alike, h, hab]

theorem any_alike {α : Type} {text : α → Str} {l m : List α} (h : Alike text l m) (p : Str → Bool) :
    (l.any fun e => p (text e)) = m.any fun e => p (text e) := by
  have : (l.map text).any p = (m.map text).any p := by rw [h]
  simpa [List.any_map, Function.comp_def] using this

/-! ## Permission bind rules -/

theorem bad_not_telling : ¬ Telling badPB := by
  rintro ⟨c, s, h, hc⟩
  cases h
  exact hc rfl

theorem pbText_telling (w : World) (p : Rights.Permission) (b : Bind.BCtx) (h : Rights.valid p = true) : Telling (pbText w p b) := by
  have := ((C109_values w.S).2.2.2.2.2.2.2 p).1 h
  simp only [pbText, List.append_assoc]
  exact telling_app _ this

theorem valid_iff (w : World) (r : PBRule) : valid r = true ↔ Telling (string w r) := by
  unfold PB.string
  by_cases h : valid r = true
  · simp only [h, if_true, true_iff]
    match r, h with
    | none, h => simp [valid, isZero] at h
    | some ⟨p, none⟩, h => 
      simp only [valid] at h
      split at h
      · cases h
      · split at h <;> simp at h
    | some ⟨p, some b⟩, h =>
      refine pbText_telling w p b ?_
      simp only [valid] at h
      split at h
      · cases h
      · split at h
        · assumption
        · cases h
  · simp only [h, if_false, false_iff, Bool.false_eq_true]
    exact bad_not_telling

theorem valid_alike (w : World) {r r' : PBRule} (h : string w r = string w r') : valid r = valid r' := by
  rw [Bool.eq_iff_iff, valid_iff w, valid_iff w, h]

/-- **C140** for permission bind rules: they have the same text if their permissions and their bind rules have. -/
theorem C140_permission_bind_rule (w : World) (p p' : Rights.Permission) (b b' : Bind.BCtx)
    (hp : Rights.string w.S p = Rights.string w.S p') (hb : w.text b = w.text b') :
    string w (PBR p (some b)) = string w (PBR p' (some b')) := by
  have hv : Rights.valid p = Rights.valid p' := by
    rw [Bool.eq_iff_iff, (C109_values w.S).2.2.2.2.2.2.2 p, (C109_values w.S).2.2.2.2.2.2.2 p', hp]
  have e : ∀ (p : Rights.Permission) (b : Bind.BCtx), valid (some ⟨p, some b⟩) = Rights.valid p := by
    intro p b
    cases p <;> simp [valid, isZero, Rights.isZero, Rights.valid]
  unfold PBR
  rw [e, e, ← hv]
  by_cases h : Rights.valid p = true
  · rw [if_pos h, if_pos h]
    unfold PB.string
    simp only [e, ← hv, h, if_true, pbText, hp, hb]
  · rw [if_neg h, if_neg h]

/-- Two permissions that are not the same, with the same text. -/
example : Rights.string plainWorld.S (some ⟨true, 1024#16⟩) = Rights.string plainWorld.S (some ⟨true, 2048#16⟩) ∧
    (some ⟨true, 1024#16⟩ : Rights.Permission) ≠ some ⟨true, 2048#16⟩ ∧
    Rights.string plainWorld.S (some ⟨true, 1024#16⟩) = b!"allow()" := by
  refine ⟨by decide +kernel, by simp, by decide +kernel⟩

theorem push1_alike (w : World) (rd : Str → Option Store) {es es' : List PBRule} {r r' : PBRule}
    (h : Alike (string w) es es') (hr : string w r = string w r') :
    Alike (string w) (push1 w rd es (.rule r)) (push1 w rd es' (.rule r')) := by
  have hc : contains w rd es (.rule r) = contains w rd es' (.rule r') := by
    simp only [contains, candidate, hr]
    exact any_alike h fun s => w.env.eq s (string w r')
  simp only [push1, stackPush, accept, hc, acceptType, valid_alike w hr]
  cases contains w rd es' (.rule r')
  · cases valid r'
    · simpa using h
    · simpa using alike_append h hr
  · simpa using h

theorem push_alike (w : World) (rd : Str → Option Store) (rs : List PBRule) : ∀ (rs' es es' : List PBRule),
    Alike (string w) es es' → Alike (string w) rs rs' →
    Alike (string w) (push w rd es (rs.map .rule)) (push w rd es' (rs'.map .rule)) := by
  induction rs with
  | nil => intro rs' es es' h hr; obtain rfl := alike_nil hr; exact h
  | cons r rs ih =>
    intro rs' es es' h hr
    obtain ⟨r', rs', rfl, h1, h2⟩ := alike_cons hr
    simp only [List.map_cons, push]
    exact ih _ _ _ (push1_alike w rd h h1) h2

/-- **C140** for lists of permission bind rules. -/
theorem C140_rules (w : World) (rd : Str → Option Store) (stop : Bool) (rs rs' es es' : List PBRule)
    (h : Alike (string w) es es') (hr : Alike (string w) rs rs') :
    Alike (string w) (push w rd es (rs.map .rule)) (push w rd es' (rs'.map .rule)) ∧
    listString w (push w rd es (rs.map .rule)) = listString w (push w rd es' (rs'.map .rule)) ∧
    listString w (PBRs w rd stop (rs.map .rule)) = listString w (PBRs w rd stop (rs'.map .rule)) := by
  have key : ∀ (rs rs' es es' : List PBRule), Alike (string w) es es' → Alike (string w) rs rs' →
      Alike (string w) (stackPush stop (accept w rd) es (rs.map .rule)) (stackPush stop (accept w rd) es' (rs'.map .rule)) := by
    intro rs
    induction rs with
    | nil => intro rs' es es' h hr; obtain rfl := alike_nil hr; exact h
    | cons r rs ih =>
      intro rs' es es' h hr
      obtain ⟨r', rs', rfl, h1, h2⟩ := alike_cons hr
      have hc : contains w rd es (.rule r) = contains w rd es' (.rule r') := by
        simp only [contains, candidate, h1]
        exact any_alike h fun s => w.env.eq s (string w r')
      simp only [List.map_cons, stackPush, accept, hc, acceptType, valid_alike w h1]
      cases contains w rd es' (.rule r')
      · cases valid r'
        · cases stop
          · simpa using ih _ _ _ h h2
          · simpa using h
        · simpa using ih _ _ _ (alike_append h h1) h2
      · cases stop
        · simpa using ih _ _ _ h h2
        · simpa using h
  refine ⟨push_alike w rd rs rs' es es' h hr, ?_, ?_⟩
  · have := push_alike w rd rs rs' es es' h hr
    simp only [Alike] at this
    rw [listString, listString, this]
  · have := key rs rs' [] [] rfl hr
    simp only [Alike] at this
    rw [PBRs, PBRs, listString, listString, this]

/-- Rules that are not the same, with the same texts; the first of them is taken, the others are
not. -/
example : Alike (string plainWorld) [PB.sampleRule b!"ssf", none, PB.sampleRule b!"ssf"]
      [PB.sampleRule b!"ssf", some ⟨some ⟨true, 1#16⟩, none⟩, PB.sampleRule b!"ssf"] ∧
    (push plainWorld (fun _ => none) [] ([PB.sampleRule b!"ssf", none, PB.sampleRule b!"ssf"].map .rule)).length = 1 := by
  refine ⟨?_, by decide +kernel⟩
  unfold Alike
  decide +kernel

/-! ## Instructions -/

/-- The text of the nil instruction ends otherwise than that of any other. -/
theorem ins_valid (w : World) {i j : Ins.Instruction} (h : Ins.string w i = Ins.string w j) : Ins.valid i = Ins.valid j := by
  have last : ∀ b : Ins.Body, (Ins.string w (some b)).getLast? = some 41 := by
    intro b
    simp only [Ins.string, List.getLast?_append]
    rfl
  have bad : (Ins.string w none).getLast? = some 62 := rfl
  cases i <;> cases j
  · rfl
  · rw [h, last] at bad; cases bad
  · rw [← h, last] at bad; cases bad
  · rfl

theorem ins_push (w : World) (rd : Str → Option Ins.Instruction) (is : List Ins.Instruction) : ∀ (is' es es' : List Ins.Instruction),
    Alike (Ins.string w) es es' → Alike (Ins.string w) is is' →
    Alike (Ins.string w) (Ins.push w rd es (is.map .ins)) (Ins.push w rd es' (is'.map .ins)) := by
  induction is with
  | nil => intro is' es es' h hi; obtain rfl := alike_nil hi; exact h
  | cons i is ih =>
    intro is' es es' h hi
    obtain ⟨i', is', rfl, h1, h2⟩ := alike_cons hi
    simp only [List.map_cons, Ins.push, List.foldl_cons]
    refine ih is' _ _ ?_ h2
    have hc : Ins.contains w es (.ins i) = Ins.contains w es' (.ins i') := by
      simp only [Ins.contains, Ins.candidate, h1]
      exact any_alike h fun s => w.env.eq s (Misc.condenseWHSP (Ins.string w i'))
    simp only [Ins.pushOne, Ins.push1, stackPush, Ins.accept, hc, Ins.acceptType, ins_valid w h1]
    cases Ins.contains w es' (.ins i')
    · cases Ins.valid i'
      · simpa using h
      · simpa using alike_append h h1
    · simpa using h

/-- **C140** for lists of instructions. -/
theorem C140_instructions (w : World) (rd : Str → Option Ins.Instruction) (is is' es es' : List Ins.Instruction)
    (h : Alike (Ins.string w) es es') (hi : Alike (Ins.string w) is is') :
    Alike (Ins.string w) (Ins.push w rd es (is.map .ins)) (Ins.push w rd es' (is'.map .ins)) ∧
    Ins.listString w (Ins.push w rd es (is.map .ins)) = Ins.listString w (Ins.push w rd es' (is'.map .ins)) := by
  have := ins_push w rd is is' es es' h hi
  refine ⟨this, ?_⟩
  simp only [Alike] at this
  rw [Ins.listString, Ins.listString, this]

/-- The instructions differ in a rule that is no rule; they have the same text. -/
example : Alike (Ins.string plainWorld) [some ⟨b!"a", [], [none]⟩, none] [some ⟨b!"a", [], [some ⟨some ⟨true, 1#16⟩, none⟩]⟩, none] ∧
    (Ins.push plainWorld (fun _ => none) [] ([some ⟨b!"a", [], [none]⟩, none].map .ins)).length = 1 := by
  refine ⟨?_, by decide +kernel⟩
  unfold Alike
  decide +kernel

/-! ## Filters and their operations -/

/-- **C140** for the filters of an operation. -/
theorem C140_operation (fs fs' : List Filter.AttributeFilter) : ∀ (o o' : Filter.AFO),
    o.operation = o'.operation → Alike Filter.AttributeFilter.string o.entries o'.entries →
    Alike Filter.AttributeFilter.string fs fs' →
    (o.push (fs.map .af)).string = (o'.push (fs'.map .af)).string := by
  induction fs generalizing fs' with
  | nil =>
    intro o o' ho h hf
    obtain rfl := alike_nil hf
    simp only [Alike] at h
    simp only [Filter.AFO.push, List.map_nil, List.foldl_nil, Filter.AFO.string, ho, h]
  | cons f fs ih =>
    intro o o' ho h hf
    obtain ⟨f', fs', rfl, h1, h2⟩ := alike_cons hf
    simp only [List.map_cons, Filter.AFO.push, List.foldl_cons, Filter.AFO.push1]
    refine ih fs' _ _ ho ?_ h2
    have hv : Filter.AttributeFilter.valid f = Filter.AttributeFilter.valid f' := by
      rw [Bool.eq_iff_iff, (C109_values (Shifty.anyRef 16)).2.2.2.2.1 f, (C109_values (Shifty.anyRef 16)).2.2.2.2.1 f', h1]
    have h' := h
    simp only [Alike] at h'
    simp only [Filter.pushAF, h', h1, hv]
    split
    · exact h
    · split
      · exact alike_append h h1
      · exact h

/-- Filters that are not the same, with the same text: neither says anything. -/
example : Alike Filter.AttributeFilter.string [none] [Filter.AF []] ∧ (none : Filter.AttributeFilter) ≠ Filter.AF [] ∧
    (Filter.mkAFO [.op Filter.AddOp]).operation = Filter.AddOp := by
  refine ⟨?_, by simp [Filter.AF], by decide +kernel⟩
  unfold Alike
  decide +kernel

/-- Before the first `=` there is only one way to cut. -/
theorem cut {c : Byte} {a b v w : Str} (ha : c ∉ a) (hb : c ∉ b) (h : a ++ c :: v = b ++ c :: w) : a = b ∧ v = w := by
  induction a generalizing b with
  | nil =>
    cases b with
    | nil => simpa using h
    | cons y b => simp only [List.nil_append, List.cons_append, List.cons.injEq] at h; exact absurd (h.1 ▸ List.mem_cons_self) hb
  | cons x a ih =>
    cases b with
    | nil => simp only [List.nil_append, List.cons_append, List.cons.injEq] at h; exact absurd (h.1 ▸ List.mem_cons_self) ha
    | cons y b =>
      simp only [List.cons_append, List.cons.injEq] at h
      obtain ⟨h1, h2⟩ := ih (fun hh => ha (List.mem_cons_of_mem _ hh)) (fun hh => hb (List.mem_cons_of_mem _ hh)) h.2
      exact ⟨by rw [h.1, h1], h2⟩

theorem op_no_eq (o : Filter.AFO) : 61 ∉ Filter.AttributeOperation.string o.operation := by
  unfold Filter.AFO.operation
  simp only
  split
  · decide
  · split <;> decide

/-- The filters of the operation say something, as those do that were pushed. -/
def Filled (o : Filter.AFO) : Prop := ∀ f ∈ o.entries, Filter.AttributeFilter.string f ≠ []

theorem join_empty {sep : Str} {l : List Str} (h : ∀ t ∈ l, t ≠ []) : Str.join sep l = [] ↔ l = [] := by
  match l with
  | [] => simp [Str.join]
  | [a] => simp [Str.join, h a (by simp)]
  | a :: b :: l => simp [Str.join, h a (by simp)]

theorem afo_len {o o' : Filter.AFO} (ho : Filled o) (ho' : Filled o') (h : o.string = o'.string) :
    (o.entries = [] ↔ o'.entries = []) := by
  unfold Filter.AFO.string at h
  simp only [List.append_assoc] at h
  have h := (cut (c := 61) (op_no_eq o) (op_no_eq o') h).2
  have e : ∀ o : Filter.AFO, Filled o → (Str.join b!" && " (o.entries.map Filter.AttributeFilter.string) = [] ↔ o.entries = []) := by
    intro o ho
    rw [join_empty (fun t ht => by obtain ⟨f, hf, rfl⟩ := List.mem_map.1 ht; exact ho f hf), List.map_eq_nil_iff]
  rw [← e o ho, ← e o' ho']
  exact ⟨fun k => h.symm.trans k, fun k => h.trans k⟩

/-- **C140** for lists of operations. -/
theorem C140_operations (os : List Filter.AFO) : ∀ (os' : List Filter.AFO) (r r' : Filter.AFOs), r.delim = r'.delim →
    Alike Filter.AFO.string r.entries r'.entries → Alike Filter.AFO.string os os' →
    (∀ o ∈ os, Filled o) → (∀ o ∈ os', Filled o) →
    (r.push (os.map .afo)).string = (r'.push (os'.map .afo)).string := by
  induction os with
  | nil =>
    intro os' r r' hd h ho _ _
    obtain rfl := alike_nil ho
    simp only [Alike] at h
    simp only [Filter.AFOs.push, List.map_nil, List.foldl_nil, Filter.AFOs.string, hd, h]
  | cons o os ih =>
    intro os' r r' hd h ho f f'
    obtain ⟨o', os', rfl, h1, h2⟩ := alike_cons ho
    simp only [List.map_cons, Filter.AFOs.push, List.foldl_cons, Filter.AFOs.push1]
    refine ih os' _ _ hd ?_ h2 (fun o ho => f o (List.mem_cons_of_mem _ ho)) (fun o ho => f' o (List.mem_cons_of_mem _ ho))
    have hl := afo_len (f o List.mem_cons_self) (f' o' List.mem_cons_self) h1
    have h' := h
    simp only [Alike] at h'
    have hl' : (o.entries.length > 0) = (o'.entries.length > 0) := by
      rw [gt_iff_lt, gt_iff_lt, List.length_pos_iff, List.length_pos_iff, ne_eq, ne_eq, hl]
    simp only [Filter.pushAFO, h', h1, hl']
    split
    · exact h
    · split
      · exact alike_append h h1
      · exact h

/-- What is made by pushing filters is filled. -/
theorem C140_filled (o : Filter.AFO) (ho : Filled o) (x : List Filter.AFOArg) : Filled (o.push x) := by
  have one : ∀ (es : List Filter.AttributeFilter) (f : Filter.AttributeFilter),
      (∀ f ∈ es, Filter.AttributeFilter.string f ≠ []) → ∀ g ∈ Filter.pushAF es f, Filter.AttributeFilter.string g ≠ [] := by
    intro es f h g hg
    unfold Filter.pushAF at hg
    split at hg
    · exact h g hg
    · split at hg
      · rename_i hv
        rcases List.mem_append.1 hg with hg | hg
        · exact h g hg
        · obtain rfl := List.mem_singleton.1 hg
          exact ((C109_values (Shifty.anyRef 16)).2.2.2.2.1 g).1 hv
      · exact h g hg
  induction x generalizing o with
  | nil => exact ho
  | cons a x ih =>
    refine ih _ ?_
    cases a with
    | str s =>
      simp only [Filter.AFO.push1]
      split
      · exact ho
      · exact one _ _ ho
    | op _ => exact ho
    | af a => exact one _ _ ho
    | other => exact ho

/-- Operations whose categories differ, with the same text, and filled. -/
example : (⟨b!"targattrfilters_add", []⟩ : Filter.AFO).string = (⟨b!"targattrfilters_ADD", []⟩ : Filter.AFO).string ∧
    Filled (Filter.mkAFO [.op Filter.AddOp, .str b!"cn:(cn=a)"]) ∧
    (Filter.mkAFO [.op Filter.AddOp, .str b!"cn:(cn=a)"]).entries.length = 1 := by
  refine ⟨by decide +kernel, C140_filled _ ?_ _, by decide +kernel⟩
  intro f hf
  simp at hf

/-! ## Names -/

/-- The claim for the names of a list of names for users. -/
def NamesAlike : Prop := ∀ (E : EqualFold) (ds ds' : List DN.BindDN), Alike DN.BindDN.string ds ds' →
  Alike DNList.BEntry.string (DNList.UDNs E.eq (ds.map .dn)).entries (DNList.UDNs E.eq (ds'.map .dn)).entries

/-- **C140** fails for names: the text of a name does not show the keyword, on which it depends
whether the list takes it. -/
theorem C140_counterexample : ¬ NamesAlike := by
  intro h
  have := h EqualFold.ref [DN.UDN b!"cn=a"] [DN.GDN b!"cn=a"] rfl
  revert this
  unfold Alike
  decide +kernel

/-- Two arguments of a list of names that differ in nothing but what their texts do not show:
names with the same keyword, addresses, or the same text. -/
inductive Mates : DNList.BArg → DNList.BArg → Prop
  | str (s : Str) : Mates (.str s) (.str s)
  | dn (d d' : DN.BindDN) : DN.keyword d = DN.keyword d' → DN.BindDN.string d = DN.BindDN.string d' → Mates (.dn d) (.dn d')
  | uri (u u' : Uri.LDAPURI) : Uri.LDAPURI.string u = Uri.LDAPURI.string u' → Mates (.uri u) (.uri u')

theorem isZero_alike {d d' : DN.BindDN} (h : DN.BindDN.string d = DN.BindDN.string d') : DN.isZero d = DN.isZero d' := by
  have e : ∀ d : DN.BindDN, DN.isZero d = !name d := fun d => by
    cases d with
    | none => rfl
    | some d => obtain ⟨_, _ | _⟩ := d <;> rfl
  have := (C109_values (Shifty.anyRef 16)).2.1
  rw [e, e]
  congr 1
  rw [Bool.eq_iff_iff, this, this, h]

/-- Mates one by one. -/
inductive Row : List DNList.BArg → List DNList.BArg → Prop
  | nil : Row [] []
  | cons {x x' : DNList.BArg} {xs xs' : List DNList.BArg} : Mates x x' → Row xs xs' → Row (x :: xs) (x' :: xs')

/-- **C140** for lists of names.  Missing: names with another keyword (`C140_counterexample`). -/
theorem C140_names_partial (eq : Str → Str → Bool) (kw : BindKeyword) (xs xs' : List DNList.BArg) (hx : Row xs xs') :
    ∀ es es', Alike DNList.BEntry.string es es' →
    Alike DNList.BEntry.string (DNList.BDNs.push eq ⟨kw, es⟩ xs).entries (DNList.BDNs.push eq ⟨kw, es'⟩ xs').entries := by
  simp only [DNList.BDNs.push]
  induction hx with
  | nil => exact fun _ _ h => h
  | cons hm _ ih =>
    intro es es' h
    have go : ∀ e e' : DNList.BEntry, e.string = e'.string → Alike DNList.BEntry.string (DNList.pushEntry eq es e) (DNList.pushEntry eq es' e') := by
      intro e e' he
      have h' := h
      simp only [Alike] at h'
      simp only [DNList.pushEntry, h', he]
      split
      · exact h
      · exact alike_append h he
    cases hm with
    | str s =>
      simp only [DNList.pushLoop, DNList.pushBindArg]
      split
      · exact h
      · exact ih _ _ (go _ _ rfl)
    | dn d d' hk ht =>
      simp only [DNList.pushLoop, DNList.pushBindArg, hk, isZero_alike ht]
      cases (!DN.isZero d' && DN.keyword d' == some kw)
      · exact h
      · exact ih _ _ (go _ _ ht)
    | uri u u' ht => exact ih _ _ (go _ _ ht)

/-- A name written with and without the scheme. -/
example : Row [.str b!"cn=a", .dn (DN.UDN b!"cn=b"), .uri none] [.str b!"cn=a", .dn (DN.UDN b!"ldap:///cn=b"), .uri none] :=
  .cons (.str _) (.cons (.dn _ _ rfl (by decide +kernel)) (.cons (.uri _ _ rfl) .nil))

/-- The claim for lists of object identifiers. -/
def IdentifiersAlike : Prop := ∀ (E : EqualFold) (R : Oid.DotReader) (os os' : List Oid.ObjectIdentifier),
  Alike Oid.string os os' →
  (Oid.Ctrls E.eq R.read (os.map .oid)).entries.length = (Oid.Ctrls E.eq R.read (os'.map .oid)).entries.length

/-- **C140** fails for object identifiers in the same way: a list for controls takes one made for
controls and refuses one made for extended operations. -/
theorem C140_identifiers_counterexample : ¬ IdentifiersAlike := by
  intro h
  have := h EqualFold.ref Oid.plainReader [Oid.Ctrl Oid.plainReader.read [.str b!"1.3.6"]] [Oid.ExtOp Oid.plainReader.read [.str b!"1.3.6"]]
    (by unfold Alike; decide +kernel)
  revert this
  decide +kernel

/-- **C140** for object identifiers.  Missing: those with another keyword
(`C140_identifiers_counterexample`). -/
theorem C140_identifiers_partial (eq : Str → Str → Bool) (R : Oid.DotReader) (r : Oid.OIDs) (o o' : Oid.ObjectIdentifier)
    (hk : Oid.keyword o = Oid.keyword o') (h : Oid.string o = Oid.string o') :
    (r.push eq R.read [.oid o]).entries.map oidEntryText = (r.push eq R.read [.oid o']).entries.map oidEntryText := by
  have hz : Oid.isZero o = Oid.isZero o' := by
    have e : ∀ o : Oid.ObjectIdentifier, Oid.isZero o = (Oid.keyword o).isNone := by
      intro o
      unfold Oid.keyword
      cases o with
      | none => rfl
      | some o => cases h : Oid.isZero (some o) <;> simp
    rw [e, e, hk]
  simp only [Oid.OIDs.push, List.foldl_cons, List.foldl_nil, Oid.OIDs.pushOne, Oid.OIDs.pushEntry, Oid.OIDs.contains, Oid.candidate, h, hk, hz]
  by_cases h1 : Oid.containsText eq r.entries (Oid.string o') = true
  · simp only [h1, if_true]
  · by_cases h2 : Oid.isZero o' = true
    · simp only [h1, h2, if_true, if_false, Bool.false_eq_true]
    · by_cases h3 : Oid.keyword o' = some r.kw
      · simp [h1, h2, h3, oidEntryText, h]
      · simp [h1, h2, h3]

example : Oid.keyword (Oid.Ctrl Oid.plainReader.read [.str b!"1.3.6"]) =
      Oid.keyword (Oid.Ctrl Oid.plainReader.read [.str b!"x", .oid (Oid.ExtOp Oid.plainReader.read [.str b!"1.3.6"])]) ∧
    Oid.string (Oid.Ctrl Oid.plainReader.read [.str b!"1.3.6"]) = b!"1.3.6" := by decide +kernel

/-! ## Target rules -/

/-- A rule whose text is that of the model: the zero one, or a complete one with a keyword
without blanks. -/
def Sound (r : TRule) : Prop := r.isZero = true ∨ (r.condOk = true ∧ 32 ∉ r.core.kw)

theorem target_alike {r r' : TRule} (hr : Sound r) (hr' : Sound r') (h : r.string = r'.string) :
    r.isZero = r'.isZero ∧ (r.isZero = false → r.keyword = r'.keyword) := by
  unfold TRule.string at h
  rcases hr with z | ⟨_, k⟩ <;> rcases hr' with z' | ⟨_, k'⟩
  · exact ⟨z.trans z'.symm, fun e => by rw [z] at e; cases e⟩
  · rw [if_pos z] at h
    split at h
    · rename_i z'; exact ⟨z.trans z'.symm, fun e => by rw [z] at e; cases e⟩
    · simp at h
  · rw [if_pos z'] at h
    split at h
    · rename_i z; exact ⟨z.trans z'.symm, fun e => by rw [z] at e; cases e⟩
    · simp at h
  · by_cases z : r.isZero = true
    · rw [if_pos z] at h
      split at h
      · rename_i z'; exact ⟨z.trans z'.symm, fun e => by rw [z] at e; cases e⟩
      · simp at h
    · by_cases z' : r'.isZero = true
      · rw [if_neg z, if_pos z'] at h
        simp at h
      · rw [if_neg z, if_neg z'] at h
        simp only [List.append_assoc] at h
        have h := List.append_cancel_left h
        have := (cut (c := 32) k k' h).1
        exact ⟨by simp_all, fun _ => by rw [TRule.keyword, TRule.keyword, this]⟩

/-- The list holds what a list can hold. -/
def Holds (es : List TRule) : Prop := ∀ r ∈ es, r.isZero = false ∧ Sound r

theorem contains_alike {es es' : List TRule} (he : Holds es) (he' : Holds es') (h : Alike TRule.string es es') (c : Str) :
    containsKw es c = containsKw es' c := by
  induction es generalizing es' with
  | nil => obtain rfl := alike_nil h; rfl
  | cons r es ih =>
    obtain ⟨r', es', rfl, h1, h2⟩ := alike_cons h
    have hr := he r List.mem_cons_self
    have := (target_alike hr.2 (he' r' List.mem_cons_self).2 h1).2 hr.1
    simp only [containsKw, List.any_cons, this]
    congr 1
    exact ih (fun r hr => he r (List.mem_cons_of_mem _ hr)) (fun r hr => he' r (List.mem_cons_of_mem _ hr)) h2

theorem targets_push (stop : Bool) (rs : List TRule) : ∀ (rs' es es' : List TRule), Holds es → Holds es' →
    Alike TRule.string es es' → (∀ r ∈ rs, Sound r) → (∀ r ∈ rs', Sound r) → Alike TRule.string rs rs' →
    Alike TRule.string (TRs.push stop es (rs.map .rule)) (TRs.push stop es' (rs'.map .rule)) := by
  induction rs with
  | nil => intro rs' es es' _ _ h _ _ hr; obtain rfl := alike_nil hr; exact h
  | cons r rs ih =>
    intro rs' es es' he he' h s s' hr
    obtain ⟨r', rs', rfl, h1, h2⟩ := alike_cons hr
    have s1 := fun r hr => s r (List.mem_cons_of_mem _ hr)
    have s2 := fun r hr => s' r (List.mem_cons_of_mem _ hr)
    obtain ⟨hz, hk⟩ := target_alike (s r List.mem_cons_self) (s' r' List.mem_cons_self) h1
    have hlen : es.length = es'.length := by simpa using congrArg List.length h
    have next : Alike TRule.string (if stop then es else TRs.push stop es (rs.map .rule))
        (if stop then es' else TRs.push stop es' (rs'.map .rule)) := by
      split
      · exact h
      · exact ih _ _ _ he he' h s1 s2 h2
    have grow : r.isZero = false → Alike TRule.string (TRs.push stop (es ++ [r]) (rs.map .rule)) (TRs.push stop (es' ++ [r']) (rs'.map .rule)) := by
      intro z
      refine ih _ _ _ ?_ ?_ (alike_append h h1) s1 s2 h2
      · intro x hx
        rcases List.mem_append.1 hx with hx | hx
        · exact he x hx
        · obtain rfl := List.mem_singleton.1 hx; exact ⟨z, s x List.mem_cons_self⟩
      · intro x hx
        rcases List.mem_append.1 hx with hx | hx
        · exact he' x hx
        · obtain rfl := List.mem_singleton.1 hx; exact ⟨hz ▸ z, s' x List.mem_cons_self⟩
    by_cases z : r.isZero = true
    · have z' := hz ▸ z
      simpa [TRs.push, stackPush, acceptTR, z, z'] using next
    · have z0 : r.isZero = false := by simpa using z
      have hc : containsKw es (TargetKeyword.string r'.keyword) = containsKw es' (TargetKeyword.string r'.keyword) := contains_alike he he' h _
      have ha : ∃ b : Bool, acceptTR es (.rule r) = (if b then some r else none) ∧ acceptTR es' (.rule r') = (if b then some r' else none) := by
        simp only [acceptTR, hlen, hz, hk z0, hc]
        split
        · exact ⟨false, rfl, rfl⟩
        split
        · exact ⟨false, rfl, rfl⟩
        split
        · exact ⟨false, rfl, rfl⟩
        split
        · exact ⟨false, rfl, rfl⟩
        · exact ⟨true, rfl, rfl⟩
      obtain ⟨b, h3, h4⟩ := ha
      simp only [TRs.push, List.map_cons, stackPush, h3, h4]
      cases b
      · exact next
      · exact grow z0

/-- **C140** for lists of target rules. -/
theorem C140_targets (stop : Bool) (rs rs' es es' : List TRule) (he : Holds es) (he' : Holds es')
    (h : Alike TRule.string es es') (hs : ∀ r ∈ rs, Sound r) (hs' : ∀ r ∈ rs', Sound r) (hr : Alike TRule.string rs rs') :
    Alike TRule.string (TRs.push stop es (rs.map .rule)) (TRs.push stop es' (rs'.map .rule)) ∧
    TRs.string (TRs.push stop es (rs.map .rule)) = TRs.string (TRs.push stop es' (rs'.map .rule)) := by
  have := targets_push stop rs rs' es es' he he' h hs hs' hr
  refine ⟨this, ?_⟩
  simp only [Alike] at this
  rw [TRs.string, TRs.string, this]

/-- Rules that are not the same, with the same text: a filter and the text of it. -/
example : Alike TRule.string [TR (.target TargetFilter) (.cop Eq') (.text b!"(cn=a)")] [TR (.str b!"TARGETFILTER") (.cop Eq') (.raw 0 [b!"(cn=a)"])] ∧
    (∀ r ∈ [TR (.target TargetFilter) (.cop Eq') (.text b!"(cn=a)")], Sound r) ∧
    (TRs.push true [] ([TR (.target TargetFilter) (.cop Eq') (.text b!"(cn=a)")].map .rule)).length = 1 := by
  refine ⟨?_, ?_, by decide +kernel⟩
  · unfold Alike
    decide +kernel
  · intro r hr
    obtain rfl := List.mem_singleton.1 hr
    exact .inr ⟨by decide +kernel, by decide +kernel⟩

/-- A keyword has no blank, however it was set. -/
theorem C140_keyword (r : RuleCore) (h : 32 ∉ r.kw) (k : KwArg) : 32 ∉ (TargetRule.setKeyword r k).kw := by
  have key : ∀ s, 32 ∉ TargetKeyword.string (matchTKW s) := by
    intro s
    unfold TargetKeyword.string lookupD
    cases e : List.find? _ _ with
    | none => decide +kernel
    | some x =>
      have : ∀ e ∈ tkwMap, 32 ∉ e.2 := by decide +kernel
      simpa using this x (List.mem_of_find?_eq_some e)
  cases k <;> simp only [TargetRule.setKeyword]
  · split
    · exact key _
    · exact h
  · split
    · exact key _
    · exact h
  · split
    · exact key _
    · exact h
  · exact h

example : 32 ∉ (⟨true, [], 0⟩ : RuleCore).kw ∧ (TargetRule.setKeyword ⟨true, [], 0⟩ (.str b!"TargetScope")).kw = b!"targetscope" := by
  decide +kernel

/-! ## Instructions from their parts -/

/-- **C140** for instructions: with the same target rules and the same name, permission bind rules
with the same texts give instructions with the same text. -/
theorem C140_instruction (w : World) (rd : Str → Option Store) (i : Ins.Instruction) (t : List TRule) (a : Str) (p p' : List PBRule)
    (h : Alike (string w) p p') :
    Ins.string w (Ins.set w rd i [.trs t, .str a, .pbrs p]) = Ins.string w (Ins.set w rd i [.trs t, .str a, .pbrs p']) := by
  have fold : ∀ (p p' es es' : List PBRule), Alike (string w) p p' → Alike (string w) es es' →
      Alike (string w) (p.foldl (fun es x => PB.push w rd es [.rule x]) es) (p'.foldl (fun es x => PB.push w rd es [.rule x]) es') := by
    intro p
    induction p with
    | nil => intro p' es es' h he; obtain rfl := alike_nil h; exact he
    | cons x p ih =>
      intro p' es es' h he
      obtain ⟨x', p', rfl, h1, h2⟩ := alike_cons h
      exact ih p' _ _ h2 (push_alike w rd [x] [x'] es es' he (by simp [Alike, h1]))
  have := fun es => fold p p' es es h rfl
  simp only [Alike] at this
  simp only [Ins.set, Ins.setBody, List.foldl_cons, List.foldl_nil, Ins.assert1, Ins.string, listString, this]

example : Alike (string plainWorld) [PB.sampleRule b!"ssf", none] [PB.sampleRule b!"ssf", some ⟨some ⟨true, 1#16⟩, none⟩] := by
  unfold Alike
  decide +kernel

/-! ## Conditions and stacks of them -/

/-- **C140** for conditions: bind rules and target rules made of expressions with the same texts have
the same text. -/
theorem C140_conditions (val : Bind.BExpr → List Str) (kw : KwArg) (op : OpArg) :
    (∀ e e', val e = val e' → (Bind.BR kw op e).text val = (Bind.BR kw op e').text val) ∧
    (∀ (r : Bind.BRule) e e', val e = val e' → (r.setExpression e).text val = (r.setExpression e').text val) ∧
    (∀ e e' : TExpr, e.texts = e'.texts → (TR kw op e).string = (TR kw op e').string) ∧
    (∀ (r : TRule) (e e' : TExpr), e.texts = e'.texts → (r.setExpression e).string = (r.setExpression e').string) := by
  refine ⟨fun e e' h => ?_, fun r e e' h => ?_, fun e e' h => ?_, fun r e e' h => ?_⟩
  · simp only [Bind.BRule.text, Bind.BRule.isZero, Bind.BRule.bare, Bind.BR, h]
    rfl
  · simp only [Bind.BRule.text, Bind.BRule.isZero, Bind.BRule.bare, Bind.BRule.setExpression, h]
    rfl
  · simp only [TRule.string, TRule.isZero, TR, TRule.setExpression, h]
    rfl
  · simp only [TRule.string, TRule.isZero, TRule.setExpression, h]
    rfl

example : (TExpr.dns (DNList.TDNsOf EqualFold.ref.eq [.str b!"cn=a"])).texts = (TExpr.dn (DN.TDN b!"cn=a")).texts ∧
    (TExpr.dn (DN.TDN b!"cn=a")).texts = [b!"ldap:///cn=a"] := by decide +kernel

/-- The claim for conditions whose quotation style is changed. -/
def StylesAlike : Prop := ∀ (kw : KwArg) (op : OpArg) (e e' : TExpr) (style : Int), e.texts = e'.texts →
  ((TR kw op e).setQuoteStyle style).string = ((TR kw op e').setQuoteStyle style).string

/-- **C140** fails once the quotation style is changed: a list of one name gets no quotation marks
at all, the name has them. -/
theorem C140_styles_counterexample : ¬ StylesAlike := by
  intro h
  have := h (.target Target) (.cop Eq') (.dns (DNList.TDNsOf EqualFold.ref.eq [.str b!"cn=a"])) (.dn (DN.TDN b!"cn=a")) 0 (by decide +kernel)
  revert this
  decide +kernel

/-- What a stack takes: a stack, or a rule with one of the keywords. -/
def Usable : Bind.BCtx → Prop
  | .rule r => r.keyword ≠ 0
  | .zero => False
  | .rules _ _ _ => True

theorem texts_filter (val : Bind.BExpr → List Str) (many : Bool → List Str → Str) (es : List Bind.BCtx) :
    Bind.BCtx.texts val many es = (es.map (Bind.BCtx.text val many)).filter (· ≠ []) := by
  induction es with
  | nil => simp [Bind.BCtx.texts]
  | cons e es ih =>
    simp only [Bind.BCtx.texts, List.map_cons, List.filter_cons, ih]
    by_cases h : Bind.BCtx.text val many e = [] <;> simp [h]

theorem usable_push (stop : Bool) (cs : List Bind.BCtx) : ∀ es, (∀ c ∈ cs, Usable c) →
    Bind.pushB stop es (cs.map .ctx) = es ++ cs := by
  have one : ∀ c, Usable c → Bind.acceptB (.ctx c) = some c := by
    intro c hc
    cases c with
    | rule r =>
      simp only [Usable] at hc
      simp only [Bind.acceptB]
      rw [if_pos]
      rw [Bind.BRule.keyword, Bind.matchBKW_again]
      exact hc
    | zero => cases hc
    | rules => rfl
  induction cs with
  | nil => intro es _; simp [Bind.pushB, stackPush]
  | cons c cs ih =>
    intro es h
    have := ih (es ++ [c]) fun c hc => h c (List.mem_cons_of_mem _ hc)
    simp only [Bind.pushB] at this
    simp only [Bind.pushB, List.map_cons, stackPush, one c (h c List.mem_cons_self), this]
    simp

/-- **C140** for stacks: rules and stacks that a stack takes, with the same texts, pushed into stacks
whose entries have the same texts, make stacks with the same text. -/
theorem C140_stacks (val : Bind.BExpr → List Str) (many : Bool → List Str → Str) (stop : Bool) (w : Bind.Word) (p : Bool)
    (cs cs' es es' : List Bind.BCtx) (hc : ∀ c ∈ cs, Usable c) (hc' : ∀ c ∈ cs', Usable c)
    (h : Alike (Bind.BCtx.text val many) cs cs') (he : Alike (Bind.BCtx.text val many) es es') :
    (Bind.BCtx.rules w p (Bind.pushB stop es (cs.map .ctx))).text val many =
      (Bind.BCtx.rules w p (Bind.pushB stop es' (cs'.map .ctx))).text val many := by
  rw [usable_push stop cs es hc, usable_push stop cs' es' hc', Bind.BCtx.text, Bind.BCtx.text, texts_filter, texts_filter,
    List.map_append, List.map_append]
  simp only [Alike] at h he
  rw [h, he]

/-- A rule, and the rule in a stack of its own, have the same text. -/
example : (Bind.BCtx.rules .and false [.rule (Bind.BR (.bind BindUDN) (.cop Eq') (.text b!"a"))]).text
      (fun | .text s => [s] | _ => []) (fun _ _ => []) =
    (Bind.BCtx.rule (Bind.BR (.bind BindUDN) (.cop Eq') (.text b!"a"))).text (fun | .text s => [s] | _ => []) (fun _ _ => []) ∧
    Usable (.rule (Bind.BR (.bind BindUDN) (.cop Eq') (.text b!"a"))) := by
  refine ⟨by decide +kernel, ?_⟩
  simp only [Usable]
  decide +kernel

end Verif.Same
