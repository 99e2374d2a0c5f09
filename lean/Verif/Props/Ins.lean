import Verif.Spec.Ins
import Verif.Props.PB
import Verif.Props.PBText
import Verif.Props.TargetValues
import Verif.Lemmas.Inside

/-!
# C51 to C53, C69, C70: instructions
-/

namespace Verif.Ins
open Verif Verif.Bind Verif.PB Verif.Rules Verif.Spec Verif.Levels

/-! ## C51 -/

/-- A push of one target rule. -/
def addTarget (es : List TRule) (t : TRule) : List TRule := TRs.push true es [.rule t]

theorem pushTarget_eq (es : List TRule) (t : TRule) : pushTarget es t = addTarget es t := by
  rw [pushTarget]
  split
  · rfl
  · next h =>
    have hz : ∀ k, ¬ Has t k := by
      intro k hk
      refine h ?_
      rw [has_keyword hk, tkwConst_string, (matchTKW_iff k.name k).2 (by simp [name_eqFold])]
      exact tkwConst_ne k
    exact (push1_none true es _ (accept_not es hz)).symm

theorem body_eq (w : World) (rd : Str → Option Store) (xs : List SetArg) (r : Body) :
    setBody w rd r xs =
      ⟨firstLabel (r.acl :: xs.flatMap SetArg.labels),
       (xs.flatMap SetArg.targets).foldl addTarget r.trs,
       (xs.flatMap SetArg.rules).foldl (fun es x => PB.push w rd es [.rule x]) r.pbrs⟩ := by
  unfold setBody
  induction xs generalizing r with
  | nil =>
    rcases r with ⟨a, t, p⟩
    cases a <;> rfl
  | cons x xs ih =>
    rw [List.foldl_cons, ih]
    rcases r with ⟨a, t, p⟩
    have hf : pushTarget = addTarget := funext fun es => funext fun t => pushTarget_eq es t
    cases x with
    | str s =>
      cases a with
      | cons c a => simp [assert1, setLabel, SetArg.targets, SetArg.rules, firstLabel]
      | nil =>
        cases s with
        | nil => simp [assert1, setLabel, SetArg.labels, SetArg.targets, SetArg.rules, firstLabel]
        | cons c s => simp [assert1, setLabel, SetArg.labels, SetArg.targets, SetArg.rules, firstLabel]
    | trs ts => simp [assert1, SetArg.labels, SetArg.targets, SetArg.rules, hf, List.foldl_append]
    | tr t' => simp [assert1, SetArg.labels, SetArg.targets, SetArg.rules, addTarget]
    | pbr r' => simp [assert1, SetArg.labels, SetArg.targets, SetArg.rules]
    | pbrs rs => simp [assert1, SetArg.labels, SetArg.targets, SetArg.rules, List.foldl_append]
    | other => simp [assert1, SetArg.labels, SetArg.targets, SetArg.rules]

theorem ACI_eq (w : World) (rd : Str → Option Store) (xs : List SetArg) :
    ACI w rd xs = some (setBody w rd newACI xs) := by
  cases xs <;> rfl

theorem history_eq (w : World) (rd : Str → Option Store) (cs : List (List SetArg)) (b : Body) :
    cs.foldl (set w rd) (some b) = some (setBody w rd b cs.flatten) := by
  induction cs generalizing b with
  | nil => rfl
  | cons c cs ih =>
    rw [List.foldl_cons, List.flatten_cons]
    have : set w rd (some b) c = some (setBody w rd b c) := rfl
    rw [this, ih]
    simp [setBody, List.foldl_append]

/-- An instruction made by `ACI`, or not made at all, and then changed by calls of `Set`,
at least one of them in the second case. -/
inductive Made (w : World) (rd : Str → Option Store) : Instruction → List SetArg → Prop where
  | aci (xs : List SetArg) (cs : List (List SetArg)) :
      Made w rd (cs.foldl (set w rd) (ACI w rd xs)) (xs ++ cs.flatten)
  | zero (c : List SetArg) (cs : List (List SetArg)) :
      Made w rd ((c :: cs).foldl (set w rd) none) (c ++ cs.flatten)

theorem made_eq {w : World} {rd : Str → Option Store} {i : Instruction} {xs : List SetArg}
    (h : Made w rd i xs) : i = some (setBody w rd newACI xs) := by
  cases h with
  | aci xs cs => rw [ACI_eq, history_eq]; simp [setBody, List.foldl_append]
  | zero c cs =>
    rw [List.foldl_cons]
    have : set w rd none c = some (setBody w rd newACI c) := rfl
    rw [this, history_eq]; simp [setBody, List.foldl_append]

/-- **C51.** The label is the first text given that is not empty, whatever else is given
in any number of calls. -/
theorem C51_label (w : World) (rd : Str → Option Store) (i : Instruction) (xs : List SetArg)
    (h : Made w rd i xs) : acl i = firstLabel (xs.flatMap SetArg.labels) := by
  rw [made_eq h, body_eq]; rfl

/-- **C51.** Once there is a label, no call of `Set` changes it. -/
theorem C51_fixed (w : World) (rd : Str → Option Store) (i : Instruction) (hl : acl i ≠ [])
    (cs : List (List SetArg)) : acl (cs.foldl (set w rd) i) = acl i := by
  cases i with
  | none => exact absurd rfl hl
  | some b =>
    rw [history_eq, body_eq]
    simp only [acl] at hl ⊢
    cases h : b.acl with
    | nil => exact absurd h hl
    | cons c a => rfl

/-- **C51.** The target rules are those of a list to which the given ones are pushed: the
first of each keyword, in order. -/
theorem C51_targets (w : World) (rd : Str → Option Store) (i : Instruction) (xs : List SetArg)
    (h : Made w rd i xs) (ps : List (TRule × TKw))
    (hp : Picks Rules.Offers ((xs.flatMap SetArg.targets).map TRArg.rule) ps) :
    trs i = (firsts sameKey ps).map (·.1) := by
  rw [made_eq h, body_eq]
  have := C43_content true _ ps hp
  rw [List.foldl_map] at this
  exact this

/-- **C51.** The permission bind rules are those of a list to which the given ones are
pushed: the first complete one of each text, in order. -/
theorem C51_rules (w : World) (E : EqualFold) (hE : w.env.eq = E.eq) (rd : Str → Option Store)
    (i : Instruction) (xs : List SetArg) (h : Made w rd i xs) (rs : List PBRule)
    (hp : Picks Whole (xs.flatMap SetArg.rules) rs) :
    pbrs i = firsts (sameText w) rs := by
  rw [made_eq h, body_eq]
  have hp' : Picks (PB.Offers rd) ((xs.flatMap SetArg.rules).map PArg.rule) rs := by
    generalize xs.flatMap SetArg.rules = l at hp
    induction hp with
    | nil => exact .nil
    | @skip x l rs hx _ ih =>
      refine .skip ?_ ih
      rintro r ⟨hc, e | ⟨_, _, e, _⟩⟩
      · cases e; exact hx _ ⟨rfl, hc⟩
      · cases e
    | @take x l r rs hx _ ih =>
      obtain ⟨rfl, hc⟩ := hx
      exact .take ⟨hc, .inl rfl⟩ ih
  have := C49_content w E hE rd _ rs hp'
  rw [List.foldl_map] at this
  exact this

/-- **C51.** Under any calls the target rules have distinct known keywords and the
permission bind rules are complete and distinct. -/
theorem C51_lists (w : World) (rd : Str → Option Store) (i : Instruction) (xs : List SetArg)
    (h : Made w rd i xs) :
    Sound (trs i) ∧ (∀ r ∈ pbrs i, Complete r) ∧ Distinct (sameText w) (pbrs i) := by
  rw [made_eq h, body_eq]
  refine ⟨?_, ?_⟩
  · have := C43_invariant ((xs.flatMap SetArg.targets).map fun t => TCall.push true [.rule t])
    rw [List.foldl_map] at this
    exact this
  · have := C49_invariant w rd true [] ((xs.flatMap SetArg.rules).map fun r => PCall.push [.rule r])
    rw [List.foldl_map] at this
    exact ⟨fun r hr => (this.1 r hr).1, this.2⟩

example : Made plainWorld (fun _ => none)
      ([[.str []], [.str b!"b", .pbr (PB.sampleRule b!"ssf")], [.str b!"c"]].foldl (set plainWorld fun _ => none) none)
      ([.str []] ++ [[.str b!"b", .pbr (PB.sampleRule b!"ssf")], [.str b!"c"]].flatten) ∧
    firstLabel [[], b!"b", b!"c"] = b!"b" ∧
    Picks Whole [PB.sampleRule b!"ssf"] [PB.sampleRule b!"ssf"] :=
  ⟨.zero _ _, rfl, .take ⟨rfl, _, _, rfl⟩ .nil⟩

/-! ## C52 -/

/-- **C52**, the full claim. -/
def NoDuplicates : Prop :=
  ∀ (w : World) (E : EqualFold), w.env.eq = E.eq → ∀ (rd : Str → Option Instruction) (h : List ICall),
    Distinct (sameIns w) (h.foldl (ICall.run w rd) [])

/-- The instruction with this label only. -/
def labelled (s : Str) : Instruction := some ⟨s, [], []⟩

theorem labelled_aci (w : World) (rd : Str → Option Store) (s : Str) : ACI w rd [.str s] = labelled s := by
  cases s <;> rfl

/-- **C52** does not hold: the label `a  b` (two spaces) or `é` makes the text differ from
its condensed form, and the instruction is accepted twice. -/
theorem C52_counterexample : ¬ NoDuplicates ∧
    ∀ s ∈ [b!"a  b", [0xC3, 0xA9]],
      (push plainWorld (fun _ => none) [] [.ins (labelled s), .ins (labelled s)]).length = 2 := by
  have key : ∀ s ∈ [b!"a  b", [0xC3, 0xA9]],
      push plainWorld (fun _ => none) [] [.ins (labelled s), .ins (labelled s)] = [labelled s, labelled s] := by
    intro s hs
    have hc : plainWorld.env.eq (string plainWorld (labelled s))
        (Misc.condenseWHSP (string plainWorld (labelled s))) = false := by
      revert s; decide +kernel
    have h1 : push1 plainWorld [] (.ins (labelled s)) = [labelled s] := rfl
    have h2 : push1 plainWorld [labelled s] (.ins (labelled s)) = [labelled s, labelled s] := by
      rw [push1, stackPush, accept]
      have : contains plainWorld [labelled s] (.ins (labelled s)) = false := by
        simp only [contains, candidate, List.any_cons, List.any_nil, hc, Bool.or_false]
      rw [this]; rfl
    simp only [push, List.foldl_cons, List.foldl_nil, pushOne, h1, h2]
  refine ⟨fun h => ?_, fun s hs => by rw [key s hs]; rfl⟩
  have := h plainWorld .ref rfl (fun _ => none) [.push [.ins (labelled b!"a  b"), .ins (labelled b!"a  b")]]
  rw [List.foldl_cons, List.foldl_nil, ICall.run, key _ (by simp)] at this
  have := this 0 1 _ _ (by decide) rfl rfl
  rw [sameIns, show plainWorld.env.eq = EqualFold.ref.eq from rfl, EqualFold.ref.refl] at this
  cases this

theorem accept_ins {w : World} {es : List Instruction} {x : IArg} {i : Instruction} (h : accept w es x = some i) :
    x = .ins i ∧ valid i = true ∧ ∀ e ∈ es, w.env.eq (string w e) (Misc.condenseWHSP (string w i)) = false := by
  rw [accept] at h
  split at h
  · cases h
  · next hc =>
    cases x with
    | str s => cases h
    | other => cases h
    | ins j =>
      rw [acceptType] at h
      split at h
      · next hv =>
        cases h
        refine ⟨rfl, hv, fun e he => ?_⟩
        rw [Bool.eq_false_iff]
        exact fun hs => hc (List.any_eq_true.2 ⟨e, he, hs⟩)
      · cases h

/-- The text of the earlier one is the condensed text of the later one. -/
def sameCondensed (w : World) (a b : Instruction) : Bool :=
  w.env.eq (string w a) (Misc.condenseWHSP (string w b))

theorem inv_push1 {w : World} {es : List Instruction} (x : IArg)
    (h : (∀ i ∈ es, valid i = true) ∧ Distinct (sameCondensed w) es) :
    (∀ i ∈ push1 w es x, valid i = true) ∧ Distinct (sameCondensed w) (push1 w es x) := by
  refine Rules.stackPush_inv
    (P := fun es => (∀ i ∈ es, valid i = true) ∧ Distinct (sameCondensed w) es) ?_ [x] h
  intro es x i hg ha
  obtain ⟨_, hv, hn⟩ := accept_ins ha
  refine ⟨?_, distinct_append hg.2 hn⟩
  intro j hj
  rcases List.mem_append.1 hj with hj | hj
  · exact hg.1 j hj
  · simp only [List.mem_singleton] at hj; subst hj; exact hv

theorem inv_push {w : World} {rd : Str → Option Instruction} {es : List Instruction} (xs : List IArg)
    (h : (∀ i ∈ es, valid i = true) ∧ Distinct (sameCondensed w) es) :
    (∀ i ∈ push w rd es xs, valid i = true) ∧ Distinct (sameCondensed w) (push w rd es xs) := by
  unfold push
  induction xs generalizing es with
  | nil => exact h
  | cons x xs ih =>
    rw [List.foldl_cons]
    apply ih
    cases x with
    | ins i => exact inv_push1 _ h
    | other => exact inv_push1 _ h
    | str s =>
      simp only [pushOne]
      cases rd s with
      | none => exact h
      | some i => exact inv_push1 _ h

/-- **C52**, what holds of all histories: every instruction is initialized, and no
instruction has the condensed text of a later one.  So two instructions with the same
text are only there if it differs from its condensed form.  (Missing from the full claim:
such texts.) -/
theorem C52_condensed_partial (w : World) (rd : Str → Option Instruction) (h : List ICall) :
    (∀ i ∈ h.foldl (ICall.run w rd) [], valid i = true) ∧
    ∀ (i j : Nat) (a b : Instruction), i < j → (h.foldl (ICall.run w rd) [])[i]? = some a →
      (h.foldl (ICall.run w rd) [])[j]? = some b → Spec.Condenses (string w b) (string w b) →
      sameIns w a b = false := by
  suffices H : ∀ es, ((∀ i ∈ es, valid i = true) ∧ Distinct (sameCondensed w) es) →
      (∀ i ∈ h.foldl (ICall.run w rd) es, valid i = true) ∧
      Distinct (sameCondensed w) (h.foldl (ICall.run w rd) es) by
    obtain ⟨h1, h2⟩ := H [] ⟨by simp, distinct_nil _⟩
    refine ⟨h1, fun i j a b hij ha hb hc => ?_⟩
    have := h2 i j a b hij ha hb
    rwa [sameCondensed, (condenses_iff _ _).1 hc] at this
  induction h with
  | nil => exact fun es h => h
  | cons c h ih =>
    intro es hg
    rw [List.foldl_cons]
    apply ih
    cases c with
    | push xs => exact inv_push xs hg
    | pop => exact ⟨fun r hr => hg.1 r (List.dropLast_subset es hr), distinct_dropLast hg.2⟩

/-- **C52.** One initialized instruction: if no instruction of the list has its condensed
text, it is appended at the end, otherwise the list stays as it is. -/
theorem C52_push (w : World) (rd : Str → Option Instruction) (es : List Instruction) (b : Body) (t : Str)
    (ht : Spec.Condenses (string w (some b)) t) :
    ((∀ e ∈ es, w.env.eq (string w e) t = false) →
      push w rd es [.ins (some b)] = es ++ [some b] ∧ pop (push w rd es [.ins (some b)]) = (es, some b)) ∧
    (∀ e ∈ es, w.env.eq (string w e) t = true →
      push w rd es [.ins (some b)] = es) ∧
    push w rd es [.ins none] = es ∧ push w rd es [.other] = es := by
  rw [condenses_iff] at ht
  subst ht
  have hp : ∀ x, push w rd es [.ins x] = push1 w es (.ins x) := fun _ => rfl
  refine ⟨?_, ?_, ?_, ?_⟩
  · intro h
    have hc : contains w es (.ins (some b)) = false := by
      rw [contains, List.any_eq_false]
      intro e he
      simp [candidate, h e he]
    have : push w rd es [.ins (some b)] = es ++ [some b] := by
      rw [hp, push1, stackPush, accept, hc]; rfl
    rw [this]; simp [pop]
  · intro e he hs
    have hc : contains w es (.ins (some b)) = true := List.any_eq_true.2 ⟨e, he, hs⟩
    rw [hp, push1, stackPush, accept, hc]; rfl
  · rw [hp, push1, stackPush, accept]
    cases contains w es (.ins none) <;> rfl
  · show push1 w es .other = es
    rw [push1, stackPush, accept]
    cases contains w es .other <;> rfl

example : Spec.Condenses (string plainWorld (labelled b!"a b")) (string plainWorld (labelled b!"a b")) ∧
    (push plainWorld (fun _ => none) [] [.ins (labelled b!"a b"), .ins (labelled b!"A B")]).length = 1 :=
  ⟨(condenses_iff _ _).2 (by decide +kernel), by decide +kernel⟩

/-- **C52.** Several arguments are pushed one after the other, and a text as the instruction
it is read as; a text that cannot be read leaves the list as it is. -/
theorem C52_each (w : World) (rd : Str → Option Instruction) (es : List Instruction) :
    push w rd es [] = es ∧
    (∀ xs ys, push w rd es (xs ++ ys) = push w rd (push w rd es xs) ys) ∧
    (∀ s, rd s = none → push w rd es [.str s] = es) ∧
    ∀ s i, rd s = some i → push w rd es [.str s] = push w rd es [.ins i] := by
  refine ⟨rfl, fun xs ys => List.foldl_append, ?_, ?_⟩
  · intro s h
    simp only [push, List.foldl_cons, List.foldl_nil, pushOne, h]
  · intro s i h
    simp only [push, List.foldl_cons, List.foldl_nil, pushOne, h]

example : (push plainWorld (fun _ => none) [] [.str b!"x", .ins (labelled b!"a b"), .str b!"y"]).length = 1 := by
  decide +kernel

/-! ## C53 -/

/-- A permission bind rule of the text is in the list: it says what a rule says that has the text
of a rule of the list. -/
def Present (F : EqualFold) (w : World) (t : PB.Tokens) (l : List PBRule) : Prop :=
  ∃ r, Says F t r ∧ ∃ r' ∈ l, sameText w r' (some r) = true

/-- **C53**, the full claim. -/
def NothingLost : Prop :=
  ∀ (w : World) (E : EqualFold) (d : Oid.DotReader) (P : Printer), Proper w.env E → w.dot = d.read → w.text = P.text →
    ∀ (rd : Str → Option Store) (t : Tokens) (i : Instruction), parse w rd t = .ok i →
    (∀ x, some x ∈ t.rules → Present E w x (pbrs i)) ∧
    (∀ r ∈ t.targets, Parsed r → ∃ r' ∈ trs i, ReadAs E d r r')

/-- `dayofweek = "xyz"`, which cannot be read, and after it `ssf >= "71"`. -/
def sampleTokens : List (Option PB.Tokens) :=
  [some ⟨⟨some true, [b!"read"]⟩, .stack b!"AND" false [.cond (rawRule b!"dayofweek" Eq' b!"xyz")]⟩,
   some ⟨⟨some false, [b!"all"]⟩, .stack b!"AND" false [.cond (rawRule b!"ssf" Ge' b!"71")]⟩]

theorem sample_first (t : PB.Tokens)
    (ht : t = ⟨⟨some true, [b!"read"]⟩, .stack b!"AND" false [.cond (rawRule b!"dayofweek" Eq' b!"xyz")]⟩) :
    process plainWorld t = .err := by
  subst ht
  have hu : Rights.unpackage plainWorld.S ⟨some true, [b!"read"]⟩ = .ok ⟨true, Rights.union [b!"read"]⟩ :=
    Rights.unpackage_eq _ _
  unfold process
  simp only [hu]
  have hw : wordToStack b!"AND" = some .and := by decide +kernel
  have hu' : (rawRule b!"dayofweek" Eq' b!"xyz").assertValue plainWorld.env = .err := sample_unread
  have ht : plainWorld.text (.rules .and false []) = [] := by
    show plainText _ = []
    simp [plainText, plainTexts]
  simp only [convert, hw, convertList, hu', finish, ht]
  rfl

/-- **C53** does not hold: of `allow(read) dayofweek = "xyz"; deny(all) ssf >= "71";`
nothing is left, and there is no error. -/
theorem C53_counterexample : ¬ NothingLost ∧
    ∀ l ts, ∃ i, parse plainWorld (fun _ => none) ⟨l, ts, sampleTokens⟩ = .ok i ∧ pbrs i = [] := by
  have key : ∀ l ts, parse plainWorld (fun _ => none) ⟨l, ts, sampleTokens⟩ =
      .ok (set plainWorld (fun _ => none) none
        [.trs (processTargetRules plainWorld.env.eq plainWorld.dot ts).1, .str l]) := by
    intro l ts
    unfold parse processAll sampleTokens
    simp only [processLoop, sample_first _ rfl, assemble]
    rfl
  have hno : ∀ l ts, pbrs (set plainWorld (fun _ => none) none
        [.trs (processTargetRules plainWorld.env.eq plainWorld.dot ts).1, .str l]) = [] := by
    intro l ts
    rw [show set plainWorld (fun _ => none) none _ = some (setBody plainWorld (fun _ => none) newACI _) from rfl, body_eq]
    rfl
  refine ⟨fun h => ?_, fun l ts => ⟨_, key l ts, hno l ts⟩⟩
  have := (h plainWorld .ref Oid.plainReader plainPrinter plain_proper rfl rfl (fun _ => none)
    ⟨b!"x", [], sampleTokens⟩ _ (key b!"x" [])).1 _ (List.mem_cons_self ..)
  obtain ⟨r, _, r', hr', _⟩ := this
  rw [hno] at hr'
  cases hr'

/-- The permission bind rules of the text are read as these, one by one. -/
inductive ReadAll (w : World) : List (Option PB.Tokens) → List Store → Prop where
  | nil : ReadAll w [] []
  | skip {ts : List (Option PB.Tokens)} {rs : List Store} : ReadAll w ts rs → ReadAll w (none :: ts) rs
  | cons {t : PB.Tokens} {ts : List (Option PB.Tokens)} {r : Store} {rs : List Store} :
      process w t = .ok r → ReadAll w ts rs → ReadAll w (some t :: ts) (r :: rs)

/-- The rest of the text is nothing, or begins with a rule that cannot be read. -/
def Stuck (w : World) (ts : List (Option PB.Tokens)) : Prop :=
  ts = [] ∨ ∃ t ts', ts = some t :: ts' ∧ process w t = .err

theorem process_complete {w : World} {t : PB.Tokens} {r : Store} (h : process w t = .ok r) :
    Complete (some r) := by
  unfold process at h
  split at h
  · cases h
  · next c _ =>
    unfold withBind at h
    split at h
    · cases h
    · cases h
    · split at h
      · cases h; exact ⟨_, _, rfl⟩
      · cases h

theorem loop_eq {w : World} {rd : Str → Option Store} {ts us : List (Option PB.Tokens)} {rs : List Store}
    (h : ReadAll w ts rs) (hs : Stuck w us) (es : List PBRule) :
    processLoop w rd es (ts ++ us) = .ok ((rs.map some).foldl (addNew (sameText w)) es, us.isEmpty) := by
  induction h generalizing es with
  | nil =>
    rcases hs with rfl | ⟨t, us', rfl, ht⟩
    · rfl
    · simp [processLoop, ht]
  | skip _ ih => exact ih es
  | @cons t ts r rs hr _ ih =>
    rw [List.map_cons, List.foldl_cons, ← ih (addNew (sameText w) es (some r))]
    simp only [List.cons_append, processLoop, hr]
    rw [PB.push_rule, push1_rule w rd es _ (process_complete hr)]

theorem loop_ok {w : World} {rd : Str → Option Store} (ts : List (Option PB.Tokens)) (es : List PBRule)
    {p : List PBRule × Bool} (h : processLoop w rd es ts = .ok p) :
    ∃ us vs rs, ts = us ++ vs ∧ ReadAll w us rs ∧ Stuck w vs ∧ (p.2 = true → vs = []) := by
  induction ts generalizing es with
  | nil => cases h; exact ⟨[], [], [], rfl, .nil, .inl rfl, fun _ => rfl⟩
  | cons t ts ih =>
    cases t with
    | none =>
      obtain ⟨us, vs, rs, e, h1, h2, h3⟩ := ih es h
      exact ⟨none :: us, vs, rs, by simp [e], .skip h1, h2, h3⟩
    | some t =>
      rw [processLoop] at h
      split at h
      · cases h
      · next he => cases h; exact ⟨[], some t :: ts, [], rfl, .nil, .inr ⟨t, ts, rfl, he⟩, fun h => by cases h⟩
      · next r he =>
        obtain ⟨us, vs, rs, e, h1, h2, h3⟩ := ih _ h
        exact ⟨some t :: us, vs, r :: rs, by simp [e], .cons he h1, h2, h3⟩

theorem firsts_firsts {α : Type} (same : α → α → Bool)
    (tr : ∀ a b c, same a b = true → same b c = true → same a c = true) (l : List α) :
    firsts same (firsts same l) = firsts same l := by
  rw [← foldl_addNew same tr l]
  exact firsts_distinct (distinct_foldl l (distinct_nil _))

theorem picks_whole {l : List PBRule} (h : ∀ r ∈ l, Complete r) : Picks Whole l l := by
  induction l with
  | nil => exact .nil
  | cons r l ih => exact .take ⟨rfl, h r (by simp)⟩ (ih fun r' hr => h r' (by simp [hr]))

theorem readAll_complete {w : World} {ts : List (Option PB.Tokens)} {rs : List Store} (h : ReadAll w ts rs) :
    ∀ r ∈ rs.map some, Complete r := by
  induction h with
  | nil => simp
  | skip _ ih => exact ih
  | cons hr _ ih =>
    intro r hm
    rw [List.map_cons] at hm
    rcases List.mem_cons.1 hm with rfl | hm
    · exact process_complete hr
    · exact ih r hm

theorem assertValue_core (eq : Str → Str → Bool) (read : Str → Option Str) (r : TRule) :
    (r.assertValue eq read).1.core = r.core := by
  unfold TRule.assertValue
  split
  · split
    · rfl
    · next ex _ => exact (setQuoteStyle_core (r.setExpression ex) _).1
  · rfl

theorem assertAll_core (eq : Str → Str → Bool) (read : Str → Option Str) (l : List TRule) :
    (assertAll eq read l).1.map TRule.core = l.map TRule.core := by
  induction l with
  | nil => rfl
  | cons r l ih =>
    rw [assertAll]
    split
    · simp only [List.map_cons, assertValue_core, ih]
    · rfl

theorem sound_core {l l' : List TRule} (h : l'.map TRule.core = l.map TRule.core) (hs : Sound l) : Sound l' := by
  have hlen : l'.length = l.length := by simpa using congrArg List.length h
  have hget : ∀ (i : Nat) (a : TRule), l'[i]? = some a → ∃ a', l[i]? = some a' ∧ a'.core = a.core := by
    intro i a ha
    have := congrArg (fun m => m[i]?) h
    simp only [List.getElem?_map, ha, Option.map_some] at this
    cases hl : l[i]? with
    | none => rw [hl] at this; cases this
    | some a' => rw [hl] at this; exact ⟨a', rfl, by simpa using this.symm⟩
  refine ⟨by rw [hlen]; exact hs.length, ?_, ?_⟩
  · intro r hr
    obtain ⟨i, hi⟩ := List.getElem?_of_mem hr
    obtain ⟨r', h1, h2⟩ := hget i r hi
    obtain ⟨k, hk⟩ := hs.known r' (List.mem_of_getElem? h1)
    exact ⟨k, by rw [Has, ← h2]; exact hk⟩
  · intro i j a b k hij ha hb h1 h2
    obtain ⟨a', ha', ea⟩ := hget i a ha
    obtain ⟨b', hb', eb⟩ := hget j b hb
    refine hs.distinct i j a' b' k hij ha' hb' ?_ ?_
    · rw [Has, ea]; exact h1
    · rw [Has, eb]; exact h2

theorem process_sound (eq : Str → Str → Bool) (read : Str → Option Str) (rs : List TRule) :
    Sound (processTargetRules eq read rs).1 := by
  refine sound_core (assertAll_core eq read _) ?_
  have := C43_invariant (rs.map fun t => TCall.push true [.rule t])
  rw [List.foldl_map] at this
  exact this

theorem again_targets {l : List TRule} (hs : Sound l) : l.foldl addTarget [] = l := by
  obtain ⟨ps, h⟩ := (sound_iff _).1 hs
  have hp : ∀ qs : List (TRule × TKw), (∀ p ∈ qs, Has p.1 p.2) →
      Picks Rules.Offers ((qs.map (·.1)).map TRArg.rule) qs := by
    intro qs
    induction qs with
    | nil => intro _; exact .nil
    | cons q qs ih => intro hq; exact .take ⟨rfl, hq q (by simp)⟩ (ih fun p hp => hq p (by simp [hp]))
  have := C43_content true _ ps (hp ps h.2.1)
  rw [List.foldl_map, firsts_distinct h.2.2, ← h.1] at this
  exact this

theorem parse_content (w : World) (E : EqualFold) (hE : w.env.eq = E.eq) (rd : Str → Option Store) (t : Tokens)
    (us vs : List (Option PB.Tokens)) (rs : List Store) (ht : t.rules = us ++ vs) (hr : ReadAll w us rs)
    (hs : Stuck w vs) :
    ∃ i, parse w rd t = .ok i ∧ acl i = t.label ∧ pbrs i = firsts (sameText w) (rs.map some) ∧
      trs i = (processTargetRules w.env.eq w.dot t.targets).1 := by
  have tr : ∀ a b c, sameText w a b = true → sameText w b c = true → sameText w a c = true := by
    intro a b c h1 h2
    simp only [sameText, hE] at *; exact E.trans _ _ _ h1 h2
  have hl := loop_eq (rd := rd) hr hs []
  rw [foldl_addNew _ tr] at hl
  refine ⟨_, by rw [parse, processAll, ht, hl, assemble], ?_, ?_, ?_⟩
  · rw [show set w rd none _ = some (setBody w rd newACI _) from rfl, body_eq]
    simp only [acl, newACI, List.flatMap_cons, List.flatMap_nil, SetArg.labels, List.append_nil,
      List.nil_append, firstLabel]
    cases t.label <;> rfl
  · refine (C51_rules w E hE rd _ _ (.zero [.trs _, .str t.label, .pbrs _] []) (firsts (sameText w) (rs.map some))
      ?_).trans (firsts_firsts _ tr _)
    simp only [List.flatten_nil, List.append_nil, List.flatMap_cons, List.flatMap_nil, SetArg.rules,
      List.nil_append]
    refine picks_whole ?_
    intro r hm
    rw [← foldl_addNew _ tr] at hm
    rcases mem_foldl_addNew hm with hm | hm
    · cases hm
    · exact readAll_complete hr r hm
  · rw [show set w rd none _ = some (setBody w rd newACI _) from rfl, body_eq]
    simp only [trs, newACI, List.flatMap_cons, List.flatMap_nil, SetArg.targets, List.append_nil]
    exact again_targets (process_sound _ _ _)

theorem mem_firsts {α : Type} {same : α → α → Bool} (refl : ∀ a, same a a = true)
    (tr : ∀ a b c, same a b = true → same b c = true → same a c = true) {l : List α} {a : α}
    (h : a ∈ l) : ∃ b ∈ firsts same l, same b a = true := by
  induction l with
  | nil => cases h
  | cons c l ih =>
    rcases List.mem_cons.1 h with rfl | h
    · exact ⟨a, by simp [firsts], refl a⟩
    · by_cases hc : same c a = true
      · exact ⟨c, by simp [firsts], hc⟩
      · obtain ⟨b, hb, hs⟩ := ih h
        by_cases hcb : same c b = true
        · exact absurd (tr _ _ _ hcb hs) hc
        · exact ⟨b, by simp [firsts, hb, hcb], hs⟩

/-- **C53.** Reading an instruction never reports an error in its rules: it succeeds or
panics. -/
theorem C53_no_error (w : World) (rd : Str → Option Store) (t : Tokens) : parse w rd t ≠ .err := by
  have : ∀ (ts : List (Option PB.Tokens)) (es : List PBRule), processLoop w rd es ts ≠ .err := by
    intro ts
    induction ts with
    | nil => intro es h; cases h
    | cons x ts ih =>
      intro es
      cases x with
      | none => exact ih es
      | some x =>
        rw [processLoop]
        split
        · intro h; cases h
        · intro h; cases h
        · exact ih _
  rw [parse]
  cases hl : processAll w rd t.rules with
  | err => exact absurd hl (this _ _)
  | panic => intro h; cases h
  | ok p => intro h; cases h

theorem allRead_mem {E : EqualFold} {d : Oid.DotReader} {rs rs' : List TRule}
    (h : AllRead E d rs rs') : ∀ r ∈ rs, ∃ r' ∈ rs', ReadAs E d r r' := by
  induction h with
  | nil => simp
  | @cons r r' rs rs' h _ ih =>
    intro x hx
    rcases List.mem_cons.1 hx with rfl | hx
    · exact ⟨r', by simp, h⟩
    · obtain ⟨y, hy, hr⟩ := ih x hx
      exact ⟨y, by simp [hy], hr⟩

theorem parse_split (w : World) (rd : Str → Option Store) (t : Tokens) (i : Instruction) (h : parse w rd t = .ok i) :
    ∃ us vs rs, t.rules = us ++ vs ∧ ReadAll w us rs ∧ Stuck w vs := by
  rw [parse] at h
  cases hl : processAll w rd t.rules with
  | err => rw [hl] at h; cases h
  | panic => rw [hl] at h; cases h
  | ok p =>
    obtain ⟨us, vs, rs, h1, h2, h3, _⟩ := loop_ok _ _ hl
    exact ⟨us, vs, rs, h1, h2, h3⟩

theorem says_all {F : EqualFold} {w : World} (hP : Proper w.env F) {P : Printer} (ht : w.text = P.text)
    (ts : List (Option PB.Tokens)) (h : ∀ x, some x ∈ ts → Legible F x) :
    ∃ rs, ReadAll w ts rs ∧ SaysAll F ts rs ∧ ∀ x, some x ∈ ts → ∃ r ∈ rs, Says F x r := by
  induction ts with
  | nil => exact ⟨[], .nil, .nil, by simp⟩
  | cons x ts ih =>
    obtain ⟨rs, h1, h2, h3⟩ := ih fun y hy => h y (by simp [hy])
    cases x with
    | none =>
      refine ⟨rs, .skip h1, .skip h2, fun y hy => h3 y ?_⟩
      simpa using hy
    | some x =>
      obtain ⟨r, hr, hs⟩ := C90_reads F w hP P ht x (h x (by simp))
      refine ⟨r :: rs, .cons hr h1, .cons hs h2, fun y hy => ?_⟩
      rcases List.mem_cons.1 hy with hy | hy
      · cases hy; exact ⟨r, by simp, hs⟩
      · obtain ⟨r', hr', e⟩ := h3 y hy
        exact ⟨r', by simp [hr'], e⟩

/-- **C53** when everything can be read and no keyword of a target rule occurs twice: every
permission bind rule and every target rule is in the instruction.  (Missing: texts with an
unreadable rule or with a second target rule of one keyword.) -/
theorem C53_readable_partial (w : World) (E : EqualFold) (d : Oid.DotReader) (P : Printer) (hP : Proper w.env E)
    (hd : w.dot = d.read) (ht : w.text = P.text) (rd : Str → Option Store) (t : Tokens)
    (hr : ∀ x, some x ∈ t.rules → Legible E x)
    (hp : ∀ r ∈ t.targets, Parsed r) (hu : ∀ r ∈ t.targets, ¬ Rules.Unreadable E d r)
    (hk : ∀ (i j : Nat) (a b : TRule) (k : TKw), i < j → t.targets[i]? = some a → t.targets[j]? = some b →
      Has a k → ¬ Has b k) :
    ∃ i, parse w rd t = .ok i ∧ acl i = t.label ∧ (∀ x, some x ∈ t.rules → Present E w x (pbrs i)) ∧
      AllRead E d t.targets (trs i) := by
  have hE := hP.1
  obtain ⟨rs, h1, -, h2⟩ := says_all hP ht t.rules hr
  obtain ⟨i, hi, hl, hpb, htr⟩ := parse_content w E hE rd t t.rules [] rs (by simp) h1 (.inl rfl)
  refine ⟨i, hi, hl, ?_, ?_⟩
  · intro x hx
    obtain ⟨r, hm, hr⟩ := h2 x hx
    refine ⟨r, hr, ?_⟩
    rw [hpb]
    refine mem_firsts ?_ ?_ (List.mem_map_of_mem hm)
    · intro a; simp only [sameText, hE]; exact E.refl _
    · intro a b c h1 h2
      simp only [sameText, hE] at *; exact E.trans _ _ _ h1 h2
  · rw [htr]
    rw [hE, hd]
    exact ((C45_distinct_partial E d t.targets hp hk).2 hu).2

/-- **C53**, what is left of the permission bind rules: those in front of the first hopeless one,
without repetitions, in their order, and nothing else.  (Missing: the rules that are dropped.) -/
theorem C53_front_partial (w : World) (E : EqualFold) (P : Printer) (hP : Proper w.env E) (ht : w.text = P.text)
    (rd : Str → Option Store) (t : Tokens) (us vs : List (Option PB.Tokens)) (he : t.rules = us ++ vs)
    (hu : ∀ x, some x ∈ us → Legible E x) (hv : vs = [] ∨ ∃ x vs', vs = some x :: vs' ∧ Hopeless E x)
    (i : Instruction) (h : parse w rd t = .ok i) :
    acl i = t.label ∧ ∃ rs, SaysAll E us rs ∧ pbrs i = firsts (sameText w) (rs.map some) := by
  obtain ⟨rs, h1, h2, -⟩ := says_all hP ht us hu
  have hs : Stuck w vs := by
    rcases hv with rfl | ⟨x, vs', rfl, hx⟩
    · exact Or.inl rfl
    · refine Or.inr ⟨x, vs', rfl, ?_⟩
      have hno := C90_refuses E w hP P ht x hx
      cases hpr : process w x with
      | ok r => exact absurd hpr (hno r)
      | err => rfl
      | panic =>
        exfalso
        have : ∀ (us : List (Option PB.Tokens)) (rs : List Store), ReadAll w us rs → ∀ es,
            processLoop w rd es (us ++ some x :: vs') = .panic := by
          intro us rs hra
          induction hra with
          | nil => intro es; simp only [List.nil_append, processLoop, hpr]
          | skip _ ih => intro es; exact ih es
          | cons hr _ ih => intro es; simp only [List.cons_append, processLoop, hr]; exact ih _
        rw [parse, he, processAll, this us rs h1] at h
        cases h
  obtain ⟨i', hi, hl, hpb, -⟩ := parse_content w E hP.1 rd t us vs rs he h1 hs
  rw [hi] at h
  cases h
  exact ⟨hl, rs, h2, hpb⟩

example : Hopeless .ref ⟨⟨some true, [b!"read"]⟩, .stack b!"AND" false [.cond (rawRule b!"dayofweek" Eq' b!"xyz")]⟩ := by
  refine Or.inr (Or.inr ⟨_, _, _, rfl, Or.inr ⟨_, _, rfl, ?_⟩⟩)
  rw [← readable_iff plain_proper]
  simp [Bind.readable, sample_unread]

example : ∃ i, parse plainWorld (fun _ => none) ⟨b!"x", [Rules.sampleRule b!"TargetAttr" b!"cn"], [some readable]⟩ = .ok i ∧
    Present .ref plainWorld readable (pbrs i) ∧ (trs i).length = 1 := by
  obtain ⟨i, h1, _, h2, h3⟩ := C53_readable_partial plainWorld .ref Oid.plainReader plainPrinter plain_proper rfl rfl (fun _ => none)
    ⟨b!"x", [Rules.sampleRule b!"TargetAttr" b!"cn"], [some readable]⟩
    (by
      intro x hx
      simp only [List.mem_singleton, Option.some.injEq] at hx
      subst hx; exact readable_legible)
    (by
      intro r hr
      simp only [List.mem_singleton] at hr
      subst hr; exact ⟨_, _, _, Rules.sample_attr, rfl⟩)
    (by
      intro r hr
      simp only [List.mem_singleton] at hr
      subst hr
      have hb : (Rules.TRule.assertValue plainWorld.env.eq plainWorld.dot
          (Rules.sampleRule b!"TargetAttr" b!"cn")).2 = true := by decide +kernel
      intro hu
      have := (C45_rule .ref Oid.plainReader _ ⟨_, _, _, Rules.sample_attr, rfl⟩).1 hu
      replace this : Rules.TRule.assertValue plainWorld.env.eq plainWorld.dot
          (Rules.sampleRule b!"TargetAttr" b!"cn") = _ := this
      rw [this] at hb; cases hb)
    (by
      intro i j a b k hij ha hb
      have : j < 1 := by
        have := (List.getElem?_eq_some_iff.1 hb).1; simpa using this
      omega)
  refine ⟨i, h1, h2 _ (by simp), ?_⟩
  generalize trs i = l at h3
  cases h3 with
  | cons h h' => cases h'; rfl

example : Stuck plainWorld sampleTokens ∧ ReadAll plainWorld [none] [] :=
  ⟨.inr ⟨_, _, rfl, sample_first _ rfl⟩, .skip .nil⟩

/-! ## C69 -/

/-- **C69**, the full claim. -/
def ValidMeansWhole : Prop := ∀ i : Instruction, valid i = true → acl i ≠ [] ∧ pbrs i ≠ []

/-- **C69** does not hold: an instruction without label, target rules and permission bind
rules is valid, and it is printed. -/
theorem C69_counterexample : ¬ ValidMeansWhole ∧
    ∀ w rd, valid (ACI w rd []) = true ∧ acl (ACI w rd []) = [] ∧ pbrs (ACI w rd []) = [] ∧
      string w (ACI w rd []) = w.targets [] ++ b!"(version 3.0; acl \"\"; )" := by
  have key : ∀ w rd, valid (ACI w rd []) = true ∧ acl (ACI w rd []) = [] ∧ pbrs (ACI w rd []) = [] ∧
      string w (ACI w rd []) = w.targets [] ++ b!"(version 3.0; acl \"\"; )" := by
    intro w rd
    refine ⟨rfl, rfl, rfl, ?_⟩
    simp [string, ACI, newACI, version, Str.join, PB.listString]
  exact ⟨fun h => (h _ (key plainWorld fun _ => none).1).1 (key plainWorld fun _ => none).2.1, key⟩

/-- **C69**, what holds: an instruction that has a label or a rule is valid, and an invalid
one has neither, and prints a marker that begins with `<`; a nil instruction is invalid.  (Missing: that a valid one has
them.) -/
theorem C69_parts_partial (w : World) (i : Instruction) :
    (acl i ≠ [] ∨ trs i ≠ [] ∨ pbrs i ≠ [] → valid i = true) ∧
    (valid i = false → string w i = b!"<invalid_aci>") ∧ (i = none → valid i = false) := by
  cases i with
  | none => exact ⟨fun h => by rcases h with h | h | h <;> exact absurd rfl h, fun _ => rfl, fun _ => rfl⟩
  | some b => exact ⟨fun _ => rfl, fun h => (by cases h), fun h => (by cases h)⟩

example : acl (labelled b!"a") ≠ [] := by decide

/-! ## C70 -/

/-- **C70**, the full claim. -/
def TextShowsLabel : Prop :=
  ∀ (w : World) (P : Printer), w.text = P.text → ∀ (rd : Str → Option Store) (i j : Instruction)
    (xs ys : List SetArg), Made w rd i xs → Made w rd j ys → string w i = string w j → acl i = acl j

mutual

/-- Bind rules with quotation marks around the value. -/
def quotedText : BCtx → Str
  | .rule r => if r.valid then r.core.kw ++ b!" = \"x\"" else []
  | .zero => []
  | .rules _ _ es => quotedTexts es

def quotedTexts : List BCtx → Str
  | [] => []
  | e :: es => quotedText e ++ quotedTexts es

end

theorem quotedTexts_ne (es : List BCtx) (e : BCtx) (he : e ∈ es) (h : quotedText e ≠ []) :
    quotedTexts es ≠ [] := by
  induction es with
  | nil => cases he
  | cons a es ih =>
    simp only [quotedTexts]
    rcases List.mem_cons.1 he with rfl | he
    · simp [h]
    · simp [ih he]

def quotedPrinter : Printer where
  text := quotedText
  rule r h := by simp [quotedText, h]
  some_entry w p es e he h := by
    simp only [quotedText]
    exact quotedTexts_ne es e he h
  no_entry w p := by simp [quotedText, quotedTexts]
  zero := by simp [quotedText]

/-- Some surroundings in which bind rules have quotation marks. -/
def quotedWorld : World := { plainWorld with text := quotedText }

/-- A label with a quotation mark in it. -/
def sneaky : Str := b!"a\"; allow(read) ssf = \"x"

/-- **C70** does not hold: the label `a"; allow(read) ssf = "x` prints as the label `a`
followed by a permission bind rule that is not there. -/
theorem C70_counterexample : ¬ TextShowsLabel := by
  intro h
  have h1 : pbrs (ACI quotedWorld (fun _ => none) [.str b!"a", .pbr (PB.sampleRule b!"ssf"),
      .pbr (PB.sampleRule b!"ip")]) = [PB.sampleRule b!"ssf", PB.sampleRule b!"ip"] := by
    refine (C51_rules quotedWorld .ref rfl _ _ _ (.aci _ []) [PB.sampleRule b!"ssf", PB.sampleRule b!"ip"]
      (.take ⟨rfl, _, _, rfl⟩ (.take ⟨rfl, _, _, rfl⟩ .nil))).trans ?_
    have : sameText quotedWorld (PB.sampleRule b!"ssf") (PB.sampleRule b!"ip") = false := by decide +kernel
    simp [firsts, this]
  have h2 : pbrs (ACI quotedWorld (fun _ => none) [.str sneaky, .pbr (PB.sampleRule b!"ip")])
      = [PB.sampleRule b!"ip"] :=
    C51_rules quotedWorld .ref rfl _ _ _ (.aci _ []) [PB.sampleRule b!"ip"] (.take ⟨rfl, _, _, rfl⟩ .nil)
  have h3 := C51_label quotedWorld _ _ _ (.aci (rd := fun _ => none) [.str b!"a", .pbr (PB.sampleRule b!"ssf"),
      .pbr (PB.sampleRule b!"ip")] [])
  have h4 := C51_label quotedWorld _ _ _ (.aci (rd := fun _ => none) [.str sneaky, .pbr (PB.sampleRule b!"ip")] [])
  have hs : ∀ i : Instruction, i ≠ none → string quotedWorld i =
      b!"(version 3.0; acl \"" ++ acl i ++ b!"\"; " ++ PB.listString quotedWorld (pbrs i) ++ b!")" := by
    intro i hi
    cases i with
    | none => exact absurd rfl hi
    | some b => simp [string, version, acl, pbrs, quotedWorld, plainWorld]
  have := h quotedWorld quotedPrinter rfl _ _ _ _ _
    (.aci (rd := fun _ => none) [.str b!"a", .pbr (PB.sampleRule b!"ssf"), .pbr (PB.sampleRule b!"ip")] [])
    (.aci (rd := fun _ => none) [.str sneaky, .pbr (PB.sampleRule b!"ip")] []) (by
      rw [hs _ (by simp [ACI]), hs _ (by simp [ACI]), h3, h4]
      simp only [List.foldl_nil, h1, h2]
      decide +kernel)
  rw [h3, h4] at this
  exact absurd this (by decide +kernel)

/-- **C70** for labels without quotation mark and equal texts of the target rules: the
text shows the label and the text of the permission bind rules.  (Missing: labels with a
quotation mark; for other target rules see `C70_targets_partial`.) -/
theorem C70_label_partial (w : World) (a b : Body) (ha : (34 : Byte) ∉ a.acl) (hb : (34 : Byte) ∉ b.acl)
    (ht : w.targets a.trs = w.targets b.trs) (h : string w (some a) = string w (some b)) :
    a.acl = b.acl ∧ PB.listString w a.pbrs = PB.listString w b.pbrs := by
  simp only [string, ht, List.append_assoc] at h
  have h := List.append_cancel_left h
  have h := List.append_cancel_left h
  have h := List.append_cancel_left h
  have h := List.append_cancel_left h
  have key : ∀ (x y s t : Str), (34 : Byte) ∉ x → (34 : Byte) ∉ y → x ++ 34 :: s = y ++ 34 :: t → x = y ∧ s = t := by
    intro x
    induction x with
    | nil =>
      intro y s t _ hy h
      cases y with
      | nil => simpa using h
      | cons c y =>
        simp only [List.nil_append, List.cons_append, List.cons.injEq] at h
        exact absurd (by rw [h.1]; simp) hy
    | cons c x ih =>
      intro y s t hx hy h
      cases y with
      | nil =>
        simp only [List.nil_append, List.cons_append, List.cons.injEq] at h
        exact absurd (by rw [h.1]; simp) hx
      | cons d y =>
        simp only [List.cons_append, List.cons.injEq] at h
        obtain ⟨rfl, h⟩ := h
        obtain ⟨h1, h2⟩ := ih y s t (fun hm => hx (by simp [hm])) (fun hm => hy (by simp [hm])) h
        exact ⟨by rw [h1], h2⟩
  obtain ⟨h1, h2⟩ := key a.acl b.acl _ _ ha hb h
  refine ⟨h1, ?_⟩
  simpa using h2

example : (34 : Byte) ∉ (Body.acl ⟨b!"a b", [], [PB.sampleRule b!"ssf"]⟩) ∧ (34 : Byte) ∈ sneaky := by
  decide +kernel

private theorem marker_after (t x r r' : Str) (h : ¬ b!"(version 3.0; acl \"" <:+: t ++ x)
    (e : b!"(version 3.0; acl \"" ++ r = x ++ (b!"(version 3.0; acl \"" ++ r')) : x = [] := by
  have border : ∀ k < 19, 0 < k → (b!"(version 3.0; acl \"").drop k ≠ (b!"(version 3.0; acl \"").take (19 - k) := by
    decide +kernel
  have hl : (b!"(version 3.0; acl \"").length = 19 := by decide +kernel
  generalize b!"(version 3.0; acl \"" = m at h e border hl
  by_cases hx : x.length < 19
  · cases hx0 : x.length with
    | zero => exact List.eq_nil_of_length_eq_zero hx0
    | succ n =>
      exfalso
      refine border x.length hx (by omega) ?_
      have h1 := congrArg (fun l => (l.drop x.length).take (19 - x.length)) e
      simp only [List.drop_append, List.take_append, hl, List.length_drop] at h1
      have h2 : x.length - 19 = 0 := by omega
      simpa [h2, hl, List.take_of_length_le] using h1
  · exfalso
    apply h
    have h1 := congrArg (List.take 19) e
    rw [List.take_append_of_le_length (by omega), List.take_append_of_le_length (by omega),
      List.take_of_length_le (by omega)] at h1
    refine ⟨t, x.drop 19, ?_⟩
    rw [h1, List.append_assoc, List.take_append_drop]

/-- **C70** for labels without quotation mark, whatever the target rules, as long as none of them has
the beginning `(version 3.0; acl "` in a value: the text shows the text of the target rules, the label
and the text of the permission bind rules.  (Missing: labels with a quotation mark, and target rules
with this beginning in a value.) -/
theorem C70_targets_partial (w : World) (a b : Body) (ha : (34 : Byte) ∉ a.acl) (hb : (34 : Byte) ∉ b.acl)
    (hta : ¬ b!"(version 3.0; acl \"" <:+: w.targets a.trs)
    (htb : ¬ b!"(version 3.0; acl \"" <:+: w.targets b.trs) (h : string w (some a) = string w (some b)) :
    w.targets a.trs = w.targets b.trs ∧ a.acl = b.acl ∧
      PB.listString w a.pbrs = PB.listString w b.pbrs := by
  have ht : w.targets a.trs = w.targets b.trs := by
    have e : ∀ c : Body, string w (some c) = w.targets c.trs ++ (b!"(version 3.0; acl \"" ++
        (c.acl ++ b!"\"; " ++ PB.listString w c.pbrs ++ b!")")) := by
      intro c
      simp only [string, version, List.append_assoc]
      rfl
    rw [e, e] at h
    rcases List.append_eq_append_iff.1 h with ⟨x, h1, h2⟩ | ⟨x, h1, h2⟩
    · rw [h1] at htb
      rw [h1, marker_after _ _ _ _ htb h2, List.append_nil]
    · rw [h1] at hta
      rw [h1, marker_after _ _ _ _ hta h2, List.append_nil]
  exact ⟨ht, C70_label_partial w a b ha hb ht h⟩

example : ¬ b!"(version 3.0; acl \"" <:+: b!"( targetattr = \"cn\" )" := by decide +kernel

end Verif.Ins
