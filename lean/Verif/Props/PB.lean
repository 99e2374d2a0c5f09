import Verif.Spec.PB
import Verif.Lemmas.Lists
import Verif.Lemmas.Target
import Verif.Props.Bind
import Verif.Props.Rights

/-!
# C49, C50, C67, C68: permission bind rules
-/

namespace Verif.PB
open Verif Verif.Bind Verif.Spec Verif.Levels

theorem valid_iff (r : PBRule) : valid r = true ↔ Complete r := by
  constructor
  · intro h
    rcases r with _ | ⟨_ | c, _ | b⟩
    · cases h
    · cases h
    · cases h
    · cases h
    · exact ⟨c, b, rfl⟩
  · rintro ⟨c, b, rfl⟩; rfl

/-! ## C49 -/

theorem accept_rule (w : World) (rd : Str → Option Store) (es : List PBRule) (r : PBRule) :
    accept w rd es (.rule r) =
      if es.any (fun e => sameText w e r) then none else if valid r then some r else none := rfl

theorem accept_sound {w : World} {rd : Str → Option Store} {es : List PBRule} {x : PArg} {r : PBRule}
    (h : accept w rd es x = some r) : x = .rule r ∧ Complete r ∧ es.any (fun e => sameText w e r) = false := by
  cases x with
  | rule r' =>
    rw [accept_rule] at h
    split at h
    · cases h
    · split at h
      · next h1 h2 =>
        cases h
        exact ⟨rfl, (valid_iff _).1 h2, by simpa using h1⟩
      · cases h
  | str s => simp only [accept, acceptType] at h; split at h <;> cases h
  | nil => cases h
  | other => simp only [accept, acceptType] at h; split at h <;> cases h

/-- What C49 claims of a list. -/
def Good (w : World) (es : List PBRule) : Prop :=
  (∀ r ∈ es, Complete r ∧ valid r = true) ∧ Distinct (sameText w) es

theorem good_accept {w : World} {rd : Str → Option Store} (es : List PBRule) (x : PArg) (r : PBRule)
    (hg : Good w es) (h : accept w rd es x = some r) : Good w (es ++ [r]) := by
  obtain ⟨_, hc, hn⟩ := accept_sound h
  refine ⟨?_, distinct_append hg.2 ?_⟩
  · intro r' hr
    rcases List.mem_append.1 hr with hr | hr
    · exact hg.1 r' hr
    · simp only [List.mem_singleton] at hr; subst hr
      exact ⟨hc, (valid_iff _).2 hc⟩
  · intro b hb
    rw [List.any_eq_false] at hn
    simpa using hn b hb

theorem good_push1 {w : World} {rd : Str → Option Store} {es : List PBRule} (hg : Good w es) (x : PArg) :
    Good w (push1 w rd es x) :=
  Rules.stackPush_inv (P := Good w) (fun es x r hg h => good_accept es x r hg h) [x] hg

theorem good_push {w : World} {rd : Str → Option Store} {es : List PBRule} (hg : Good w es) (xs : List PArg) :
    Good w (push w rd es xs) := by
  induction xs generalizing es with
  | nil => exact hg
  | cons x xs ih =>
    cases x with
    | str s =>
      rw [push]
      cases rd s with
      | none => exact hg
      | some r => exact ih (good_push1 hg _)
    | rule r => exact ih (good_push1 hg _)
    | nil => exact ih (good_push1 hg _)
    | other => exact ih (good_push1 hg _)

/-- **C49.** After `PBRs` with any arguments and any history of pushes, of any arguments,
and pops: every element is complete and valid, and no two have the same text up to letter
case. -/
theorem C49_invariant (w : World) (rd : Str → Option Store) (stop : Bool) (xs : List PArg) (h : List PCall) :
    (∀ r ∈ h.foldl (PCall.run w rd) (PBRs w rd stop xs), Complete r ∧ valid r = true) ∧
      Distinct (sameText w) (h.foldl (PCall.run w rd) (PBRs w rd stop xs)) := by
  suffices H : ∀ es, Good w es → Good w (h.foldl (PCall.run w rd) es) from
    H _ (Rules.stackPush_inv (P := Good w) (fun es x r hg h => good_accept es x r hg h) xs
      ⟨by simp, distinct_nil _⟩)
  induction h with
  | nil => exact fun es h => h
  | cons c h ih =>
    intro es hg
    rw [List.foldl_cons]
    apply ih
    cases c with
    | push xs => exact good_push hg xs
    | pop => exact ⟨fun r hr => hg.1 r (List.dropLast_subset es hr), distinct_dropLast hg.2⟩

theorem push1_rule (w : World) (rd : Str → Option Store) (es : List PBRule) (r : PBRule) (hc : Complete r) :
    push1 w rd es (.rule r) = addNew (sameText w) es r := by
  rw [push1, stackPush, accept_rule, addNew, (valid_iff r).2 hc]
  cases es.any fun e => sameText w e r <;> rfl

theorem push1_bad (w : World) (rd : Str → Option Store) (es : List PBRule) (x : PArg)
    (h : ∀ r, x = .rule r → ¬ Complete r) : push1 w rd es x = es := by
  have : accept w rd es x = none := by
    cases ha : accept w rd es x with
    | none => rfl
    | some r => exact absurd (accept_sound ha).2.1 (h r (accept_sound ha).1)
  rw [push1, stackPush, this]; rfl

theorem push_rule (w : World) (rd : Str → Option Store) (es : List PBRule) (r : PBRule) :
    push w rd es [.rule r] = push1 w rd es (.rule r) := rfl

/-- **C49.** One argument: a complete rule whose text is new is appended; a rule whose
text is present is not; anything that is no complete rule, nor the text of one, is not. -/
theorem C49_push (w : World) (rd : Str → Option Store) (es : List PBRule) (x : PArg) :
    (∀ r, Offers rd x r → (∀ e ∈ es, sameText w e r = false) → push w rd es [x] = es ++ [r]) ∧
    (∀ r, Offers rd x r → ∀ e ∈ es, sameText w e r = true → push w rd es [x] = es) ∧
    ((∀ r, ¬ Offers rd x r) → push w rd es [x] = es) := by
  have hof : ∀ r, Offers rd x r → push w rd es [x] = addNew (sameText w) es r := by
    rintro r ⟨hc, rfl | ⟨s, st, rfl, hs, rfl⟩⟩
    · rw [push_rule, push1_rule w rd es r hc]
    · simp only [push, hs]; rw [push1_rule w rd es _ hc]
  refine ⟨?_, ?_, ?_⟩
  · intro r hr hn
    rw [hof r hr, addNew, if_neg]
    rw [List.any_eq_true]
    rintro ⟨e, he, hs⟩
    rw [hn e he] at hs; cases hs
  · intro r hr e he hs
    rw [hof r hr, addNew, if_pos (List.any_eq_true.2 ⟨e, he, hs⟩)]
  · intro hn
    cases x with
    | str s =>
      rw [push]
      cases hs : rd s with
      | none => rfl
      | some st =>
        refine push1_bad _ _ _ _ ?_
        rintro r h hc
        cases h
        exact hn _ ⟨hc, Or.inr ⟨s, st, rfl, hs, rfl⟩⟩
    | rule r => exact push1_bad _ _ _ _ fun r' h hc => hn r' ⟨hc, Or.inl h⟩
    | nil => exact push1_bad w rd es .nil fun r' h => by cases h
    | other => exact push1_bad w rd es .other fun r' h => by cases h

/-- **C49.** What a list holds after pushes of one argument each: the first rule of each
text, in the order of the pushes. -/
theorem C49_content (w : World) (E : EqualFold) (hE : w.env.eq = E.eq) (rd : Str → Option Store)
    (xs : List PArg) (rs : List PBRule) (h : Picks (Offers rd) xs rs) :
    xs.foldl (fun es x => push w rd es [x]) [] = firsts (sameText w) rs := by
  rw [← foldl_addNew (sameText w) (fun a b c h1 h2 => by
    simp only [sameText, hE] at *; exact E.trans _ _ _ h1 h2)]
  suffices H : ∀ es, xs.foldl (fun es x => push w rd es [x]) es = rs.foldl (addNew (sameText w)) es from H []
  induction h with
  | nil => intro es; rfl
  | @skip x xs rs hx _ ih =>
    intro es
    rw [List.foldl_cons, (C49_push w rd es x).2.2 hx]; exact ih es
  | @take x xs r rs hx _ ih =>
    intro es
    rw [List.foldl_cons, List.foldl_cons, ← ih]
    congr 1
    rw [addNew]
    split
    · next ha =>
      obtain ⟨e, he, hs⟩ := List.any_eq_true.1 ha
      exact (C49_push w rd es x).2.1 r hx e he hs
    · next ha =>
      refine (C49_push w rd es x).1 r hx fun e he => ?_
      rw [Bool.eq_false_iff]
      exact fun hs => ha (List.any_eq_true.2 ⟨e, he, hs⟩)

/-- **C49.** A push of several arguments is the same as pushing one by one those in front
of the first text that cannot be read. -/
theorem C49_push_many (w : World) (rd : Str → Option Store) (es : List PBRule) (xs : List PArg)
    (hr : ∀ x ∈ xs, ¬ Unreadable rd x) (ys : List PArg) (hy : ∀ y ∈ ys.head?, Unreadable rd y) :
    push w rd es (xs ++ ys) = xs.foldl (fun es x => push w rd es [x]) es := by
  induction xs generalizing es with
  | nil =>
    cases ys with
    | nil => rfl
    | cons y ys =>
      obtain ⟨s, rfl, hs⟩ := hy y rfl
      simp [push, hs]
  | cons x xs ih =>
    have ih := fun es => ih es fun x hx => hr x (by simp [hx])
    rw [List.foldl_cons, ← ih, List.cons_append]
    cases x with
    | str s =>
      cases hs : rd s with
      | none => exact absurd ⟨s, rfl, hs⟩ (hr (.str s) (by simp))
      | some st => simp only [push, hs]
    | rule r => rfl
    | nil => rfl
    | other => rfl

/-- **C49.** `Pop` undoes a push that changed the list. -/
theorem C49_pop (w : World) (rd : Str → Option Store) (es : List PBRule) (x : PArg) (r : PBRule)
    (hr : Offers rd x r) (hn : ∀ e ∈ es, sameText w e r = false) :
    pop (push w rd es [x]) = (es, r) := by
  rw [(C49_push w rd es x).1 r hr hn]; simp [pop]

/-- Some surroundings. -/
def plainWorld : World := ⟨.anyRef 16, plainEnv, plainText, fun _ => [], Oid.plainReader.read⟩

/-- `allow(read)` with a bind rule of the given keyword. -/
def sampleRule (kw : Str) : PBRule :=
  some ⟨some ⟨true, 1#16⟩, some (.rule ⟨⟨true, kw, Eq'⟩, .text b!"x", false, false, false⟩)⟩

example : Complete (sampleRule b!"ssf") ∧ ¬ Complete none ∧
    sameText plainWorld (sampleRule b!"ssf") (sampleRule b!"SSF") = true ∧
    sameText plainWorld (sampleRule b!"ssf") (sampleRule b!"ip") = false := by
  refine ⟨⟨_, _, rfl⟩, ?_, by decide +kernel, by decide +kernel⟩
  rintro ⟨_, _, h⟩; cases h

example : Picks (Offers fun _ => none)
    [.rule none, .rule (sampleRule b!"ssf"), .nil, .rule (sampleRule b!"SSF"), .rule (sampleRule b!"ip")]
    [sampleRule b!"ssf", sampleRule b!"SSF", sampleRule b!"ip"] ∧
    (firsts (sameText plainWorld) [sampleRule b!"ssf", sampleRule b!"SSF", sampleRule b!"ip"]).length = 2 := by
  refine ⟨?_, by decide +kernel⟩
  refine .skip ?_ (.take ⟨⟨_, _, rfl⟩, .inl rfl⟩ (.skip ?_ (.take ⟨⟨_, _, rfl⟩, .inl rfl⟩
    (.take ⟨⟨_, _, rfl⟩, .inl rfl⟩ .nil))))
  · rintro _ ⟨⟨_, _, rfl⟩, h | ⟨_, _, h, _⟩⟩ <;> cases h
  · rintro _ ⟨_, h | ⟨_, _, h, _⟩⟩ <;> cases h

/-! ## C50 -/

theorem string_nospace (S : Shifty 16) (c : Rights.Cell) : (32 : Byte) ∉ Rights.string S (some c) := by
  have hname : ∀ r : Rights.Right, (32 : Byte) ∉ Rights.Right.string r := by
    intro r
    unfold Rights.Right.string
    split
    · next e he =>
      have hm := List.mem_of_find?_eq_some he
      have : ∀ e ∈ Rights.rightsMap, (32 : Byte) ∉ e.2 := by decide +kernel
      exact this e hm
    · simp
  have hjoin : ∀ l : List Str, (∀ s ∈ l, (32 : Byte) ∉ s) → (32 : Byte) ∉ Str.join b!"," l := by
    intro l
    induction l with
    | nil => intro _; simp [Str.join]
    | cons a l ih =>
      intro h
      cases l with
      | nil => exact h a (by simp)
      | cons b l =>
        rw [Str.join]
        simp only [List.mem_append, not_or]
        exact ⟨⟨h a (by simp), by decide⟩, ih fun s hs => h s (by simp [hs])⟩
  have hs : ∀ l : List Str, (∀ s ∈ l, (32 : Byte) ∉ s) → (32 : Byte) ∉ Rights.sprintf (some c) l := by
    intro l hl
    simp only [Rights.sprintf, List.mem_append, not_or]
    refine ⟨⟨⟨?_, by decide⟩, hjoin l hl⟩, by decide⟩
    simp only [Rights.disposition]
    split <;> decide
  simp only [Rights.string]
  split
  · exact hs _ (by simpa using hname _)
  split
  · refine hs _ ?_
    intro s h
    simp only [List.mem_cons, List.not_mem_nil, or_false] at h
    rcases h with rfl | rfl <;> exact hname _
  split
  · exact hs _ (by simpa using hname _)
  · refine hs _ ?_
    intro s h
    obtain ⟨i, _, rfl⟩ := List.mem_map.1 h
    exact hname _

theorem string_head (S : Shifty 16) (c : Rights.Cell) :
    ∃ t, Rights.string S (some c) = b!"allow(" ++ t ∨ Rights.string S (some c) = b!"deny(" ++ t := by
  have hs : ∀ l : List Str, ∃ t, Rights.sprintf (some c) l = b!"allow(" ++ t ∨
      Rights.sprintf (some c) l = b!"deny(" ++ t := by
    intro l
    refine ⟨Str.join b!"," l ++ b!")", ?_⟩
    cases h : c.disp
    · right; simp [Rights.sprintf, Rights.disposition, h]
    · left; simp [Rights.sprintf, Rights.disposition, h]
  simp only [Rights.string]
  split
  · exact hs _
  split
  · exact hs _
  split
  · exact hs _
  · exact hs _

theorem append_space_inj {a b s t : Str} (ha : (32 : Byte) ∉ a) (hb : (32 : Byte) ∉ b)
    (h : a ++ b!" " ++ s = b ++ b!" " ++ t) : a = b ∧ s = t := by
  have key : ∀ a b : Str, (32 : Byte) ∉ a → (32 : Byte) ∉ b → a ++ 32 :: s = b ++ 32 :: t → a = b ∧ s = t := by
    intro a
    induction a with
    | nil =>
      intro b _ hb h
      cases b with
      | nil => simpa using h
      | cons c b =>
        simp only [List.nil_append, List.cons_append, List.cons.injEq] at h
        exact absurd (by rw [h.1]; simp) hb
    | cons c a ih =>
      intro b ha hb h
      cases b with
      | nil =>
        simp only [List.nil_append, List.cons_append, List.cons.injEq] at h
        exact absurd (by rw [h.1]; simp) ha
      | cons d b =>
        simp only [List.cons_append, List.cons.injEq] at h
        obtain ⟨rfl, h⟩ := h
        obtain ⟨h1, h2⟩ := ih b (fun hm => ha (by simp [hm])) (fun hm => hb (by simp [hm])) h
        exact ⟨by rw [h1], h2⟩
  exact key a b ha hb (by simpa using h)

theorem string_complete (w : World) (c : Rights.Cell) (b : BCtx) :
    string w (some ⟨some c, some b⟩) = Rights.string w.S (some c) ++ b!" " ++ w.text b ++ b!";" := rfl

theorem marker_iff (w : World) (r : PBRule) : string w r = b!"<invalid_pbrule>" ↔ ¬ Complete r := by
  rw [← valid_iff]
  constructor
  · intro h hv
    obtain ⟨c, b, rfl⟩ := (valid_iff r).1 hv
    rw [string_complete] at h
    obtain ⟨t, ht | ht⟩ := string_head w.S c <;> rw [ht] at h <;>
      simp only [List.append_assoc] at h <;>
      exact absurd (congrArg List.head? h) (by simp)
  · intro h
    simp only [string]; rw [if_neg h]; rfl

/-- **C50.** A rule with permission and bind context prints the permission, a space, the
bind context and a semicolon; any other rule prints the marker; no rule of the first sort
prints the marker; and `Valid` tells which sort a rule is of. -/
theorem C50_text (w : World) (r : PBRule) :
    (∀ c b, r = some ⟨some c, some b⟩ →
      string w r = Rights.string w.S (some c) ++ b!" " ++ w.text b ++ b!";" ∧
      string w r ≠ b!"<invalid_pbrule>" ∧ valid r = true) ∧
    ((∀ c b, r ≠ some ⟨some c, some b⟩) → string w r = b!"<invalid_pbrule>" ∧ valid r = false) := by
  constructor
  · rintro c b rfl
    have hc : Complete (some ⟨some c, some b⟩) := ⟨c, b, rfl⟩
    exact ⟨string_complete w c b, fun h => (marker_iff w _).1 h hc, (valid_iff _).2 hc⟩
  · intro h
    have hc : ¬ Complete r := by rintro ⟨c, b, h'⟩; exact h c b h'
    exact ⟨(marker_iff w r).2 hc, by rw [Bool.eq_false_iff]; exact fun hv => hc ((valid_iff _).1 hv)⟩

/-- **C50.** `PBR` keeps both parts if they are there, and gives an empty rule
otherwise. -/
theorem C50_make (p : Rights.Permission) (b : Option BCtx) :
    (∀ c b', p = some c → b = some b' → PBR p b = some ⟨some c, some b'⟩) ∧
    (p = none ∨ b = none → PBR p b = none) := by
  constructor
  · rintro c b' rfl rfl; rfl
  · rintro (rfl | rfl)
    · cases b <;> rfl
    · cases p <;> rfl

/-- **C50.** The text shows both parts: equal texts have equal texts of the bind contexts,
and permissions of the same disposition and the same rights. -/
theorem C50_parts (w : World) (p q : Rights.Permission) (a b : BCtx) (hp : Rights.valid p = true)
    (hq : Rights.valid q = true) (h : string w (some ⟨p, some a⟩) = string w (some ⟨q, some b⟩)) :
    Rights.string w.S p = Rights.string w.S q ∧ w.text a = w.text b ∧
    (Rights.WithinTen p → Rights.WithinTen q →
      Rights.stored p = Rights.stored q ∧ ∀ r, Rights.grants w.S p r = Rights.grants w.S q r) := by
  cases p with
  | none => cases hp
  | some c =>
  cases q with
  | none => cases hq
  | some d =>
    rw [string_complete, string_complete] at h
    have h := List.append_cancel_right h
    obtain ⟨h1, h2⟩ := append_space_inj (string_nospace _ c) (string_nospace _ d) h
    exact ⟨h1, h2, fun h3 h4 => (Rights.C02_text_injective w.S _ _ hp hq h3 h4).1 h1⟩

example : string plainWorld (sampleRule b!"ssf") = b!"allow(read) ssf;" ∧
    string plainWorld (some ⟨some ⟨true, 1#16⟩, none⟩) = b!"<invalid_pbrule>" ∧
    Rights.WithinTen (some ⟨true, 1#16⟩) := by
  refine ⟨by decide +kernel, by decide +kernel, by simp [Rights.WithinTen]⟩

/-! ## C67 -/

/-- **C67**, the full claim. -/
def ValidMeansUsable : Prop :=
  ∀ r : PBRule, valid r = true ↔ ∃ c b, r = some ⟨some c, some b⟩ ∧ Meaningful b

/-- **C67** does not hold: all rights are granted under an empty bind rule or under an
empty list of bind rules, and `PBR` and `Valid` accept it. -/
theorem C67_counterexample : ¬ ValidMeansUsable ∧
    (∀ S, ∀ b ∈ [BCtx.rule ⟨⟨false, [], 0⟩, .nil, false, false, false⟩, .zero, .rules .and false []],
      ¬ Meaningful b ∧ valid (PBR (Rights.Allow S [.right Rights.AllAccess]) (some b)) = true) := by
  have key : ∀ S, ∀ b ∈ [BCtx.rule ⟨⟨false, [], 0⟩, .nil, false, false, false⟩, .zero, .rules .and false []],
      ¬ Meaningful b ∧ valid (PBR (Rights.Allow S [.right Rights.AllAccess]) (some b)) = true := by
    intro S b hb
    simp only [List.mem_cons, List.not_mem_nil, or_false] at hb
    rcases hb with rfl | rfl | rfl
    · exact ⟨by simp only [Meaningful]; decide, rfl⟩
    · exact ⟨id, rfl⟩
    · exact ⟨fun h => h rfl, rfl⟩
  refine ⟨fun h => ?_, key⟩
  obtain ⟨hm, hv⟩ := key (.anyRef 16) .zero (by simp)
  obtain ⟨c, b, e, hb⟩ := (h _).1 hv
  have e : some BCtx.zero = some b := congrArg (fun r : PBRule => r.bind (·.b)) e
  cases e
  exact hm hb

/-- **C67**, what holds: a rule with a permission and a usable bind context is valid, and
a valid one has both parts.  (Missing: nothing is asked of the bind context.) -/
theorem C67_parts_partial (r : PBRule) :
    ((∃ c b, r = some ⟨some c, some b⟩ ∧ Meaningful b) → valid r = true) ∧
    (valid r = true → ∃ c b, r = some ⟨some c, some b⟩) :=
  ⟨fun ⟨c, b, h, _⟩ => (valid_iff r).2 ⟨c, b, h⟩, fun h => (valid_iff r).1 h⟩

/-- **C67** for rules that were read: the bind context is an initialized list with at
least one entry.  (Missing: rules that were made otherwise.) -/
theorem C67_read_partial (w : World) (P : Printer) (hP : w.text = P.text) (t : Tokens) (r : Store)
    (h : process w t = .ok r) :
    valid (some r) = true ∧ ∃ c b, r = ⟨some c, some b⟩ ∧ Meaningful b := by
  unfold process at h
  cases hu : Rights.unpackage w.S t.p with
  | error e => rw [hu] at h; cases h
  | ok c =>
    rw [hu] at h
    simp only at h
    cases hc : convert w.env w.text t.b with
    | panic => rw [hc] at h; cases h
    | err => rw [hc] at h; cases h
    | ok x =>
      obtain ⟨b, ok⟩ := x
      rw [hc] at h
      simp only [withBind] at h
      cases ok with
      | false => simp at h
      | true =>
        simp only [if_true, Outcome.ok.injEq] at h
        subst h
        refine ⟨rfl, c, b, rfl, ?_⟩
        cases ht : t.b with
        | cond _ => rw [ht] at hc; simp only [convert] at hc; cases hc
        | other => rw [ht] at hc; simp only [convert] at hc; cases hc
        | stack k p es =>
          rw [ht] at hc
          simp only [convert] at hc
          cases hw : wordToStack k with
          | none => rw [hw] at hc; cases hc
          | some wd =>
            rw [hw] at hc
            simp only at hc
            cases hl : convertList w.env w.text [] es with
            | panic => rw [hl] at hc; cases hc
            | err => rw [hl] at hc; cases hc
            | ok o =>
              cases o with
              | none => rw [hl] at hc; cases hc
              | some cs =>
                rw [hl] at hc
                unfold finish at hc
                simp only at hc
                split at hc
                · cases hc
                simp only [Outcome.ok.injEq, Prod.mk.injEq, decide_eq_true_eq] at hc
                obtain ⟨rfl, hlen⟩ := hc
                simp only [uncloakRules, Meaningful]
                intro hn
                have : cs = [] := by simpa using hn
                rw [this, hP, P.no_entry] at hlen
                simp at hlen

/-- `allow(read) ssf >= "71"` as the parser returns it. -/
def readable : Tokens :=
  ⟨⟨some true, [b!"read"]⟩, .stack b!"AND" false [.cond (rawRule b!"ssf" Ge' b!"71")]⟩

theorem readable_ok : ∃ r : Store, process plainWorld readable = .ok r := by
  obtain ⟨c, hc⟩ := tree_read plainEnv plainPrinter b!"AND" false [.cond (rawRule b!"ssf" Ge' b!"71")]
    (by simp only [PTree.Known, PTree.AllKnown]; decide)
    (by simp only [PTree.Filled, PTree.AllFilled]; decide)
    (by
      intro r hr
      simp only [PTree.conds, PTree.condsAll, List.mem_singleton, List.append_nil] at hr
      subst hr
      exact ⟨by decide +kernel, rfl, by decide, ssf_printed⟩)
  have hc := parse_ok hc
  have hu : Rights.unpackage plainWorld.S ⟨some true, [b!"read"]⟩ = .ok ⟨true, Rights.union [b!"read"]⟩ :=
    Rights.unpackage_eq _ _
  refine ⟨⟨some ⟨true, Rights.union [b!"read"]⟩, some c⟩, ?_⟩
  unfold process readable
  simp only [hu]
  have hc' : convert plainWorld.env plainWorld.text
      (.stack b!"AND" false [.cond (rawRule b!"ssf" Ge' b!"71")]) = .ok (c, true) := hc
  rw [hc']; rfl

example : Meaningful (.rule ⟨⟨true, b!"ssf", Eq'⟩, .text b!"x", false, false, false⟩) ∧
    ∃ r : Store, process plainWorld readable = .ok r :=
  ⟨by simp only [Meaningful]; decide, readable_ok⟩

/-! ## C68 -/

theorem refused_perm (rd : Str → Option Store) (p : Rights.Permission) :
    Refused rd (.perm p) ↔ Rights.valid p = false := by
  cases p <;> simp [Refused, Rights.valid]

theorem refused_ctx (rd : Str → Option Store) (b : BCtx) : Refused rd (.ctx b) ↔ ctxValid b = false := by
  cases b <;> simp [Refused, ctxValid]

/-- The parts after one argument. -/
def step (rd : Str → Option Store) (r : Store) (x : SetArg) : Store :=
  ⟨(x.perm? rd).getD r.p, (x.ctx? rd).getD r.b⟩

theorem setAll_front {rd : Str → Option Store} {xs ys : List SetArg} (h : Front rd xs ys) (r : Store) :
    setAll rd r xs = ys.foldl (step rd) r := by
  induction h generalizing r with
  | nil => rfl
  | @stop x xs hx =>
    cases x with
    | str s => simp only [Refused] at hx; simp [setAll, hx]
    | perm p => rw [setAll, if_neg (by simp [(refused_perm rd p).1 hx])]; rfl
    | ctx b => rw [setAll, if_neg (by simp [(refused_ctx rd b).1 hx])]; rfl
    | other => exact absurd hx (by simp [Refused])
  | @cons x xs ys hx _ ih =>
    rw [List.foldl_cons, ← ih]
    cases x with
    | str s =>
      simp only [Refused] at hx
      cases hs : rd s with
      | none => exact absurd hs hx
      | some st => simp [setAll, hs, step, SetArg.perm?, SetArg.ctx?]
    | perm p => rw [setAll, if_pos (by simpa [refused_perm] using hx)]; rfl
    | ctx b => rw [setAll, if_pos (by simpa [refused_ctx] using hx)]; rfl
    | other => rfl

theorem storage_eq (r : PBRule) : storage r = r.getD ⟨none, none⟩ := by
  rcases r with _ | ⟨_ | c, _ | b⟩ <;> rfl

theorem lastOf_cons {α β : Type} (f : α → Option β) (x : α) (xs : List α) (d : β) :
    (lastOf f (x :: xs)).getD d = (lastOf f xs).getD ((f x).getD d) := by
  unfold lastOf
  cases hx : f x with
  | none => simp [hx]
  | some y =>
    rw [List.filterMap_cons, hx]
    simp only [List.getLast?_cons, Option.getD_some]

theorem steps_eq (rd : Str → Option Store) (xs : List SetArg) (r : Store) :
    xs.foldl (step rd) r =
      ⟨(lastOf (SetArg.perm? rd) xs).getD r.p, (lastOf (SetArg.ctx? rd) xs).getD r.b⟩ := by
  induction xs generalizing r with
  | nil => rfl
  | cons x xs ih => rw [List.foldl_cons, ih, lastOf_cons, lastOf_cons]; rfl

/-- **C68.** After any history of `Set` calls each part is the last one given in front of
the first refused argument of its call; a part never given stays what it was. -/
theorem C68_set (rd : Str → Option Store) (r : PBRule) (cs : List (List SetArg)) (hcs : cs ≠ [])
    (xs : List SetArg) (h : Fronts rd cs xs) :
    cs.foldl (set rd) r = some
      ⟨(lastOf (SetArg.perm? rd) xs).getD (r.getD ⟨none, none⟩).p,
       (lastOf (SetArg.ctx? rd) xs).getD (r.getD ⟨none, none⟩).b⟩ := by
  rw [← steps_eq]
  induction h generalizing r with
  | nil => exact absurd rfl hcs
  | @cons c cs xs ys hc hcs' ih =>
    rw [List.foldl_cons, List.foldl_append]
    have h1 : set rd r c = some (xs.foldl (step rd) (r.getD ⟨none, none⟩)) := by
      rw [set, setAll_front hc, storage_eq]
    cases cs with
    | nil => cases hcs'; rw [List.foldl_nil, h1]; rfl
    | cons c' cs' => rw [h1, ih _ (by simp)]; rfl

/-- **C68.** There is always such a sequence of arguments. -/
theorem C68_fronts (rd : Str → Option Store) (cs : List (List SetArg)) : ∃ xs, Fronts rd cs xs := by
  have one : ∀ c : List SetArg, ∃ xs, Front rd c xs := by
    intro c
    induction c with
    | nil => exact ⟨[], .nil⟩
    | cons x c ih =>
      obtain ⟨xs, h⟩ := ih
      rcases Classical.em (Refused rd x) with hx | hx
      · exact ⟨[], .stop hx⟩
      · exact ⟨x :: xs, .cons hx h⟩
  induction cs with
  | nil => exact ⟨[], .nil⟩
  | cons c cs ih =>
    obtain ⟨xs, h⟩ := one c
    obtain ⟨ys, h'⟩ := ih
    exact ⟨xs ++ ys, .cons h h'⟩

example : Fronts (fun _ => none)
    [[.perm (some ⟨true, 1#16⟩), .other, .perm none, .ctx (.rules .and false [])], [.perm (some ⟨false, 2#16⟩)]]
    ([.perm (some ⟨true, 1#16⟩), .other] ++ ([.perm (some ⟨false, 2#16⟩)] ++ [])) :=
  .cons (.cons (by simp [Refused]) (.cons (by simp [Refused]) (.stop (by simp [Refused]))))
    (.cons (.cons (by simp [Refused]) .nil) .nil)

end Verif.PB
