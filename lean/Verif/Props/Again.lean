import Verif.Props.Order
import Verif.Props.DN
import Verif.Props.Net
import Verif.Props.Filter
import Verif.Props.Oid
import Verif.Props.Attr

/-!
# Giving an argument again (C133)
-/

namespace Verif.Again
open Verif Verif.Spec

/-- What `step` does with an argument that was given before: nothing, whatever was given in the meantime, if all
arguments are among `ok`. -/
def Settles {R A : Type} (ok : A → Prop) (step : R → A → R) : Prop :=
  ∀ (r : R) (x : A) (ys : List A), ok x → (∀ y ∈ ys, ok y) →
    step (ys.foldl step (step r x)) x = ys.foldl step (step r x)

/-- Any argument. -/
def Any {A : Type} (_ : A) : Prop := True

theorem settles {R A : Type} {ok : A → Prop} {step : R → A → R}
    (idem : ∀ r x, ok x → step (step r x) x = step r x)
    (stable : ∀ r x y, ok x → ok y → step r x = r → step (step r y) x = step r y) : Settles ok step := by
  intro r x ys hx hy
  have key : ∀ (ys : List A) (r : R), (∀ y ∈ ys, ok y) → step r x = r → step (ys.foldl step r) x = ys.foldl step r := by
    intro ys
    induction ys with
    | nil => exact fun r _ h => h
    | cons y ys ih =>
      intro r hy h
      exact ih _ (fun z hz => hy z (List.mem_cons_of_mem _ hz)) (stable r x y hx (hy y (by simp)) h)
  exact key ys _ hy (idem r x hx)

theorem mask_settles {n : Nat} {A : Type} {ok : A → Prop} {f : BitVec n → A → BitVec n}
    (h : ∀ a, ok a → ∃ m, ∀ v, f v a = v ||| m) : Settles ok f := by
  refine settles ?_ ?_
  · intro v a ha
    obtain ⟨m, hm⟩ := h a ha
    rw [hm, hm, BitVec.or_assoc, BitVec.or_self]
  · intro v a b ha hb e
    obtain ⟨m, hm⟩ := h a ha
    obtain ⟨k, hk⟩ := h b hb
    rw [hm] at e
    rw [hm, hk, BitVec.or_assoc, BitVec.or_comm k, ← BitVec.or_assoc, e]

/-! ## Words of bits -/

theorem rights_mask (S : Shifty 16) (a : Rights.Arg) (ha : Rights.InRange a) :
    ∃ m, ∀ v, Rights.shift1 S v a = v ||| m ∧ Rights.unshift1 S v a = v &&& ~~~ m := by
  cases a with
  | int i =>
    have : Shifty.Fits 16 i := by
      have := ha i rfl
      simp only [Shifty.Fits]
      omega
    exact ⟨BitVec.ofInt 16 i, fun v => ⟨by simp [Rights.shift1, Shifty.shiftInt, this, Shifty.shift],
      by simp [Rights.unshift1, Shifty.unshiftInt, this, Shifty.unshift]⟩⟩
  | right r => exact ⟨r, fun v => ⟨rfl, rfl⟩⟩
  | str s =>
    cases e : Rights.rightsNames (Str.lower s) with
    | some m => exact ⟨m, fun v => ⟨by simp [Rights.shift1, e, Shifty.shift], by simp [Rights.unshift1, e, Shifty.unshift]⟩⟩
    | none => exact ⟨0#16, fun v => by simpa only [Rights.shift1, Rights.unshift1, e] using Order.mask_none v⟩
  | other => exact ⟨0#16, Order.mask_none⟩

/-- **C133** for rights given to a permission. -/
theorem C133_rights (S : Shifty 16) : Settles Rights.InRange (fun p a => Rights.shift S p [a]) := by
  have k := mask_settles (f := Rights.shift1 S) fun a ha => (rights_mask S a ha).imp fun _ h v => (h v).1
  intro p x ys hx hy
  cases p with
  | none =>
    have : ∀ ys : List Rights.Arg, ys.foldl (fun p a => Rights.shift S p [a]) none = none := by
      intro ys; induction ys with
      | nil => rfl
      | cons y ys ih => exact ih
    show Rights.shift S (ys.foldl _ none) [x] = ys.foldl _ none
    rw [this]; rfl
  | some c =>
    have e : ∀ (ys : List Rights.Arg) (v : BitVec 16), ys.foldl (fun p a => Rights.shift S p [a]) (some ⟨c.disp, v⟩) =
        some ⟨c.disp, ys.foldl (Rights.shift1 S) v⟩ := by
      intro ys; induction ys with
      | nil => exact fun _ => rfl
      | cons y ys ih => exact fun v => ih _
    have e1 : Rights.shift S (some c) [x] = some ⟨c.disp, Rights.shift1 S c.bits x⟩ := rfl
    simp only [e1, e]
    have := k c.bits x ys hx hy
    simp only [Rights.shift, Option.map_some, List.foldl_cons, List.foldl_nil, this]

theorem day_mask (a : Time.Arg) : ∃ m, ∀ v, Time.shift1 v a = v ||| m := by
  refine ⟨Time.matchDoW a, fun v => ?_⟩
  have c : ∀ d : BitVec 8, (if d ≠ Time.noDay then Shifty.shift v d else v) = v ||| d := by
    intro d
    by_cases hd : d = Time.noDay
    · subst hd
      simp only [ne_eq, not_true, if_false]
      exact (Order.mask_none v).1
    · simp [hd, Shifty.shift]
  cases a with
  | int i => exact c _
  | str s => exact c _
  | day d => rfl
  | other => exact (Order.mask_none v).1

/-- **C133** for days of the week. -/
theorem C133_days : Settles Any (fun r a => Time.shift r [a]) := by
  have k := mask_settles (ok := Any) (f := Time.shift1) fun a _ => day_mask a
  intro r x ys hx hy
  have e : ∀ (ys : List Time.Arg) (v : BitVec 8), ys.foldl (fun r a => Time.shift r [a]) (some v) =
      some (ys.foldl Time.shift1 v) := by
    intro ys; induction ys with
    | nil => exact fun _ => rfl
    | cons y ys ih => exact fun v => ih _
  have e1 : Time.shift r [x] = some (Time.shift1 (r.getD 0#8) x) := rfl
  simp only [e1, e]
  have := k (r.getD 0#8) x ys hx hy
  simp only [Time.shift, Option.getD_some, List.foldl_cons, List.foldl_nil, this]

/-- **C133**, the full claim for levels. -/
def LevelsSettle : Prop := Settles Any (fun r a => Levels.shift r [a])

/-- **C133** for the levels of an inheritance that has an attribute pair.  Missing: those without, as the value
returned by `Shift` then holds the last level alone. -/
theorem C133_levels_partial (r : Levels.Inheritance) (hr : Levels.isZero r = false) (x : Levels.Arg) (ys : List Levels.Arg) :
    Levels.shift (ys.foldl (fun r a => Levels.shift r [a]) (Levels.shift r [x])) [x] =
      ys.foldl (fun r a => Levels.shift r [a]) (Levels.shift r [x]) := by
  have k := mask_settles (ok := Any) (f := Levels.shift1) fun a _ => ⟨Levels.level a, fun _ => rfl⟩
  cases r with
  | none => cases hr
  | some i =>
    have hz : ∀ v, Levels.isZero (some ⟨v, i.abtv⟩) = false := fun v => hr
    have one : ∀ v a, Levels.shift (some ⟨v, i.abtv⟩) [a] = some ⟨Levels.shift1 v a, i.abtv⟩ := by
      intro v a
      simp only [Levels.shift, hz]
      rfl
    have e : ∀ (ys : List Levels.Arg) (v : BitVec 16), ys.foldl (fun r a => Levels.shift r [a]) (some ⟨v, i.abtv⟩) =
        some ⟨ys.foldl Levels.shift1 v, i.abtv⟩ := by
      intro ys; induction ys with
      | nil => exact fun _ => rfl
      | cons y ys ih => exact fun v => by rw [List.foldl_cons, one, ih]; rfl
    have e1 : Levels.shift (some i) [x] = some ⟨Levels.shift1 i.levels x, i.abtv⟩ := one i.levels x
    rw [e1, e, one, k i.levels x ys trivial fun _ _ => trivial]

/-! ## Lists -/

/-- Values to which something is added for an argument, or not. -/
theorem add_settles {R A E : Type} {ok : A → Prop} {step : R → A → R} (accept : R → A → Option E) (add : R → E → R)
    (hs : ∀ r x, ok x → step r x = (accept r x).elim r (add r)) (hn : ∀ r e, add r e ≠ r)
    (idem : ∀ r x e, ok x → accept r x = some e → accept (add r e) x = none)
    (stable : ∀ r x e, ok x → accept r x = none → accept (add r e) x = none) : Settles ok step := by
  refine settles ?_ ?_
  · intro r x hx
    simp only [hs r x hx]
    cases h : accept r x with
    | none => simp only [Option.elim, hs r x hx, h]
    | some e => simp only [Option.elim, hs _ x hx, idem r x e hx h]
  · intro r x y hx hy h
    have h : accept r x = none := by
      rw [hs r x hx] at h
      cases e : accept r x with
      | none => rfl
      | some f => rw [e] at h; exact absurd h (hn r f)
    simp only [hs r y hy]
    cases h' : accept r y with
    | none => simp only [Option.elim, hs r x hx, h]
    | some e => simp only [Option.elim, hs _ x hx, stable r x e hx h]

theorem append_ne {E : Type} (es : List E) (e : E) : es ++ [e] ≠ es := by
  intro h
  have := congrArg List.length h
  simp at this

theorem stackPush_one {A E : Type} (stop : Bool) (accept : List E → A → Option E) (es : List E) (x : A) :
    stackPush stop accept es [x] = (accept es x).elim es (fun e => es ++ [e]) := by
  rw [stackPush]
  cases accept es x with
  | some e => rfl
  | none => cases stop <;> rfl

/-- **C133** for IP addresses. -/
theorem C133_ips : Settles Any (fun r a => Net.IPAddr.set r [a]) := by
  have one : ∀ (l : List Str) a, Net.ipSet l [a] = if 0 < a.length ∧ a ∉ l ∧ Net.isValidIP a = true then l ++ [a] else l := by
    intro l a
    have : Net.unique l a = true ↔ a ∉ l := by
      rw [Net.unique, Bool.not_eq_true', ← Bool.not_eq_true, Net.strInSlice_iff]
    simp only [Net.ipSet]
    by_cases h1 : 0 < a.length <;> by_cases h2 : a ∈ l <;> by_cases h3 : Net.isValidIP a = true <;> simp_all
  have k : Settles Any (fun (l : List Str) a => Net.ipSet l [a]) := by
    refine add_settles (fun l a => if 0 < a.length ∧ a ∉ l ∧ Net.isValidIP a = true then some a else none)
      (fun l a => l ++ [a]) ?_ append_ne ?_ ?_
    · intro l a _
      rw [one]
      by_cases h : 0 < a.length ∧ a ∉ l ∧ Net.isValidIP a = true
      · rw [if_pos h, if_pos h]; rfl
      · rw [if_neg h, if_neg h]; rfl
    · intro l a e _ h
      split at h
      · cases h; simp
      · cases h
    · intro l a e _ h
      split at h
      · cases h
      · next h2 =>
        refine if_neg fun h' => h2 ⟨h'.1, fun hm => h'.2.1 (List.mem_append_left _ hm), h'.2.2⟩
  intro r x ys hx hy
  have e : ∀ (ys : List Str) (l : List Str), ys.foldl (fun r a => Net.IPAddr.set r [a]) (some l) =
      some (ys.foldl (fun l a => Net.ipSet l [a]) l) := by
    intro ys; induction ys with
    | nil => exact fun _ => rfl
    | cons y ys ih => exact fun v => ih _
  have e1 : Net.IPAddr.set r [x] = some (Net.ipSet (r.getD []) [x]) := rfl
  simp only [e1, e]
  have := k (r.getD []) x ys hx hy
  simp only [Net.IPAddr.set, Option.getD_some, this]

/-- **C133** for target rules. -/
theorem C133_targets (stop : Bool) : Settles Any (fun es x => Rules.TRs.push stop es [x]) := by
  refine add_settles Rules.acceptTR (fun es e => es ++ [e]) (fun es x _ => stackPush_one stop _ es x) append_ne ?_ ?_
  · intro es x e _ h
    cases x with
    | other => rfl
    | rule r =>
      simp only [Rules.acceptTR] at h ⊢
      split at h
      · cases h
      split at h
      · cases h
      split at h
      · cases h
      split at h
      · cases h
      cases h
      have : Rules.containsKw (es ++ [e]) (TargetKeyword.string e.keyword) = true := by
        rw [Rules.containsKw, List.any_append, List.any_cons]
        simp [Str.eqFold]
      simp [this]
  · intro es x e _ h
    cases x with
    | other => rfl
    | rule r =>
      simp only [Rules.acceptTR] at h ⊢
      have mono : Rules.containsKw es (TargetKeyword.string r.keyword) = true →
          Rules.containsKw (es ++ [e]) (TargetKeyword.string r.keyword) = true := by
        intro h
        rw [Rules.containsKw] at h ⊢
        rw [List.any_append, h]; rfl
      by_cases h1 : es.length ≥ 9
      · rw [if_pos (by simp; omega)]
      · rw [if_neg h1] at h
        split
        · rfl
        split at h
        · next h2 => rw [if_pos h2]
        · next h2 =>
          rw [if_neg h2]
          split at h
          · next h3 => rw [if_pos h3]
          · next h3 =>
            rw [if_neg h3]
            split at h
            · next h4 => rw [if_pos (mono h4)]
            · cases h

/-- **C133** for permission bind rules. -/
theorem C133_rules (w : PB.World) (E : EqualFold) (hE : w.env.eq = E.eq) (rd : Str → Option PB.Store) :
    Settles Any (fun es x => PB.push w rd es [x]) := by
  let acc : List PB.PBRule → PB.PArg → Option PB.PBRule := fun es x =>
    match x with
    | .str s => match rd s with
      | none => none
      | some r => PB.accept w rd es (.rule (some r))
    | x => PB.accept w rd es x
  have base : ∀ (es : List PB.PBRule) x e, (PB.accept w rd es x = some e → PB.accept w rd (es ++ [e]) x = none) ∧
      (PB.accept w rd es x = none → PB.accept w rd (es ++ [e]) x = none) := by
    intro es x e
    have self : ∀ r, PB.contains w rd (es ++ [r]) (.rule r) = true := by
      intro r
      simp [PB.contains, PB.candidate, hE, E.refl]
    have mono : ∀ x, PB.contains w rd es x = true → PB.contains w rd (es ++ [e]) x = true := by
      intro x h
      rw [PB.contains] at h ⊢
      rw [List.any_append, h]; rfl
    cases x with
    | nil => exact ⟨fun _ => rfl, fun _ => rfl⟩
    | rule r =>
      simp only [PB.accept, PB.acceptType]
      constructor
      · intro h
        split at h
        · cases h
        split at h
        · cases h; rw [self]; rfl
        · cases h
      · intro h
        split at h
        · next h1 => rw [mono _ h1]; rfl
        split at h
        · cases h
        · next h2 => simp [h2]
    | str s => exact ⟨fun h => by simp [PB.accept, PB.acceptType] at h, fun h => by simp [PB.accept, PB.acceptType]⟩
    | other => exact ⟨fun h => by simp [PB.accept, PB.acceptType] at h, fun h => by simp [PB.accept, PB.acceptType]⟩
  refine add_settles acc (fun es e => es ++ [e]) ?_ append_ne ?_ ?_
  · intro es x _
    cases x with
    | str s =>
      simp only [PB.push, acc]
      cases rd s with
      | none => rfl
      | some r => exact stackPush_one true _ es _
    | nil => exact stackPush_one true (PB.accept w rd) es .nil
    | rule r => exact stackPush_one true (PB.accept w rd) es (.rule r)
    | other => exact stackPush_one true (PB.accept w rd) es .other
  · intro es x e _ h
    cases x with
    | str s =>
      simp only [acc] at h ⊢
      cases hr : rd s with
      | none => rfl
      | some r => rw [hr] at h; exact (base es _ e).1 h
    | nil => exact (base es _ e).1 h
    | rule r => exact (base es _ e).1 h
    | other => exact (base es _ e).1 h
  · intro es x e _ h
    cases x with
    | str s =>
      simp only [acc] at h ⊢
      cases hr : rd s with
      | none => rfl
      | some r => rw [hr] at h; exact (base es _ e).2 h
    | nil => exact (base es _ e).2 h
    | rule r => exact (base es _ e).2 h
    | other => exact (base es _ e).2 h

/-- **C133**, the full claim for instructions. -/
def InstructionsSettle : Prop :=
  ∀ (w : PB.World) (E : EqualFold), w.env.eq = E.eq → ∀ rd, Settles Any (fun es x => Ins.push w rd es [x])

/-- **C133** for instructions whose texts are condensed.  Missing: the others (C52). -/
theorem C133_instructions_partial (w : PB.World) (E : EqualFold) (hE : w.env.eq = E.eq) (rd : Str → Option Ins.Instruction) :
    Settles (fun x => (∀ i, x = .ins i → Condenses (Ins.string w i) (Ins.string w i)) ∧
      ∀ s i, x = .str s → rd s = some i → Condenses (Ins.string w i) (Ins.string w i))
      (fun es x => Ins.push w rd es [x]) := by
  have idem : ∀ es i e, Condenses (Ins.string w i) (Ins.string w i) → Ins.accept w es (.ins i) = some e →
      Ins.accept w (es ++ [e]) (.ins i) = none := by
    intro es i e hc h
    simp only [Ins.accept, Ins.acceptType] at h ⊢
    split at h
    · cases h
    split at h
    · cases h
      have : Ins.contains w (es ++ [i]) (.ins i) = true := by
        have := (Verif.condenses_iff _ _).1 hc
        simp [Ins.contains, Ins.candidate, this, hE, E.refl]
      rw [this]; rfl
    · cases h
  have stable : ∀ es x e, Ins.accept w es x = none → Ins.accept w (es ++ [e]) x = none := by
    intro es x e h
    rw [Ins.accept] at h ⊢
    split at h
    · next h1 =>
      have : Ins.contains w (es ++ [e]) x = true := by
        rw [Ins.contains] at h1 ⊢
        rw [List.any_append, h1]; rfl
      rw [this]; rfl
    · rw [h]; simp
  refine add_settles (fun es x => match x with
      | .str s => match rd s with
        | none => none
        | some i => Ins.accept w es (.ins i)
      | x => Ins.accept w es x) (fun es e => es ++ [e]) ?_ append_ne ?_ ?_
  · intro es x _
    cases x with
    | str s =>
      simp only [Ins.push, List.foldl_cons, List.foldl_nil, Ins.pushOne]
      cases rd s with
      | none => rfl
      | some r => exact stackPush_one true _ es _
    | ins i => exact stackPush_one true (Ins.accept w) es (.ins i)
    | other => exact stackPush_one true (Ins.accept w) es .other
  · intro es x e hx h
    cases x with
    | str s =>
      simp only at h ⊢
      cases hr : rd s with
      | none => rfl
      | some r => rw [hr] at h; exact idem es r e (hx.2 s r rfl hr) h
    | ins i => exact idem es i e (hx.1 i rfl) h
    | other => simp [Ins.accept, Ins.acceptType] at h
  · intro es x e _ h
    cases x with
    | str s =>
      simp only at h ⊢
      cases hr : rd s with
      | none => rfl
      | some r => rw [hr] at h; exact stable es _ e h
    | ins i => exact stable es _ e h
    | other => exact stable es _ e h

/-- **C133** for bind distinguished names. -/
theorem C133_bind_names (E : EqualFold) : Settles Any (fun r x => DNList.BDNs.push E.eq r [x]) := by
  refine add_settles (fun r x => match DNList.pushBindArg r.kw x with
      | none => none
      | some e => if DNList.containsText E.eq (r.entries.map DNList.BEntry.string) e.string then none else some e)
    (fun r e => { r with entries := r.entries ++ [e] }) ?_ (fun r e h => append_ne r.entries e (congrArg DNList.BDNs.entries h)) ?_ ?_
  · intro r x _
    simp only [DNList.BDNs.push, DNList.pushLoop, DNList.pushEntry]
    cases DNList.pushBindArg r.kw x with
    | none => rfl
    | some e => simp only; split <;> simp_all
  · intro r x e _ h
    simp only at h ⊢
    cases hx : DNList.pushBindArg r.kw x with
    | none => rfl
    | some e' =>
      rw [hx] at h
      simp only at h ⊢
      split at h
      · cases h
      · cases h
        simp [DNList.containsText, E.refl]
  · intro r x e _ h
    simp only at h ⊢
    cases hx : DNList.pushBindArg r.kw x with
    | none => rfl
    | some e' =>
      rw [hx] at h
      simp only at h ⊢
      split at h
      · next h1 => exact if_pos (by rw [DNList.containsText] at h1 ⊢; rw [List.map_append, List.any_append, h1]; rfl)
      · cases h

/-- **C133** for target distinguished names. -/
theorem C133_target_names (E : EqualFold) : Settles Any (fun r x => DNList.TDNs.push E.eq r [x]) := by
  refine add_settles (fun r x => match DNList.pushTargetArg r.kw x with
      | none => none
      | some e => if DNList.containsText E.eq (r.entries.map DN.TargetDN.string) (DN.TargetDN.string e) then none else some e)
    (fun r e => { r with entries := r.entries ++ [e] }) ?_ (fun r e h => append_ne r.entries e (congrArg DNList.TDNs.entries h)) ?_ ?_
  · intro r x _
    simp only [DNList.TDNs.push, DNList.pushTargetLoop, DNList.pushTargetEntry]
    cases DNList.pushTargetArg r.kw x with
    | none => rfl
    | some e => simp only; split <;> simp_all
  · intro r x e _ h
    simp only at h ⊢
    cases hx : DNList.pushTargetArg r.kw x with
    | none => rfl
    | some e' =>
      rw [hx] at h
      simp only at h ⊢
      split at h
      · cases h
      · cases h
        simp [DNList.containsText, E.refl]
  · intro r x e _ h
    simp only at h ⊢
    cases hx : DNList.pushTargetArg r.kw x with
    | none => rfl
    | some e' =>
      rw [hx] at h
      simp only at h ⊢
      split at h
      · next h1 => exact if_pos (by rw [DNList.containsText] at h1 ⊢; rw [List.map_append, List.any_append, h1]; rfl)
      · cases h

/-- What is added to the filters of an operation. -/
def acceptAF (es : List Filter.AttributeFilter) (a : Filter.AttributeFilter) : Option Filter.AttributeFilter :=
  if Filter.containsText (es.map Filter.AttributeFilter.string) (Filter.AttributeFilter.string a) then none
  else if Filter.AttributeFilter.valid a then some a else none

theorem acceptAF_idem {es a e} (h : acceptAF es a = some e) : acceptAF (es ++ [e]) a = none := by
  simp only [acceptAF] at h ⊢
  split at h
  · cases h
  split at h
  · cases h; simp [Filter.containsText]
  · cases h

theorem acceptAF_stable {es a e} (h : acceptAF es a = none) : acceptAF (es ++ [e]) a = none := by
  simp only [acceptAF] at h ⊢
  split at h
  · next h1 => exact if_pos (by rw [Filter.containsText] at h1 ⊢; rw [List.map_append, List.any_append, h1]; rfl)
  split at h
  · cases h
  · next h2 => simp [h2]

/-- **C133**, the full claim for the filters of an operation. -/
def FiltersSettle : Prop := Settles Any (fun r x => Filter.AFO.push r [x])

/-- **C133** for the filters of an operation.  Missing: the operation itself, of which the last one given counts. -/
theorem C133_filters_partial : Settles (fun x => ∀ o, x ≠ .op o) (fun r x => Filter.AFO.push r [x]) := by
  refine add_settles (fun r x => match x with
      | .str s => match Filter.parseAttributeFilter s with
        | .error _ => none
        | .ok a => acceptAF r.entries a
      | .af a => acceptAF r.entries a
      | _ => none)
    (fun r e => { r with entries := r.entries ++ [e] }) ?_ (fun r e h => append_ne r.entries e (congrArg Filter.AFO.entries h)) ?_ ?_
  · have key : ∀ (r : Filter.AFO) a, { r with entries := Filter.pushAF r.entries a } =
        (acceptAF r.entries a).elim r fun e => { r with entries := r.entries ++ [e] } := by
      intro r a
      simp only [Filter.pushAF, acceptAF]
      split
      · rfl
      split
      · rfl
      · rfl
    intro r x hx
    cases x with
    | str s =>
      simp only [Filter.AFO.push, List.foldl_cons, List.foldl_nil, Filter.AFO.push1]
      cases Filter.parseAttributeFilter s with
      | error _ => rfl
      | ok a => exact key r a
    | af a => exact key r a
    | op o => exact absurd rfl (hx o)
    | other => rfl
  · intro r x e _ h
    cases x with
    | str s =>
      simp only at h ⊢
      cases hs : Filter.parseAttributeFilter s with
      | error _ => rfl
      | ok a => rw [hs] at h; exact acceptAF_idem h
    | af a => exact acceptAF_idem h
    | op o => rfl
    | other => rfl
  · intro r x e _ h
    cases x with
    | str s =>
      simp only at h ⊢
      cases hs : Filter.parseAttributeFilter s with
      | error _ => rfl
      | ok a => rw [hs] at h; exact acceptAF_stable h
    | af a => exact acceptAF_stable h
    | op o => rfl
    | other => rfl

/-- What is added to a list of filter operations. -/
def acceptAFO (es : List Filter.AFO) (a : Filter.AFO) : Option Filter.AFO :=
  if Filter.containsText (es.map Filter.AFO.string) a.string then none
  else if a.entries.length > 0 then some a else none

theorem acceptAFO_idem {es a e} (h : acceptAFO es a = some e) : acceptAFO (es ++ [e]) a = none := by
  simp only [acceptAFO] at h ⊢
  split at h
  · cases h
  split at h
  · cases h; simp [Filter.containsText]
  · cases h

theorem acceptAFO_stable {es a e} (h : acceptAFO es a = none) : acceptAFO (es ++ [e]) a = none := by
  simp only [acceptAFO] at h ⊢
  split at h
  · next h1 => exact if_pos (by rw [Filter.containsText] at h1 ⊢; rw [List.map_append, List.any_append, h1]; rfl)
  split at h
  · cases h
  · next h2 => simp [h2]

/-- **C133** for filter operations. -/
theorem C133_operations : Settles Any (fun r x => Filter.AFOs.push r [x]) := by
  refine add_settles (fun r x => match x with
      | .str s => match Filter.parseAFO s with
        | .error _ => none
        | .ok a => acceptAFO r.entries a
      | .afo a => acceptAFO r.entries a
      | .other => none)
    (fun r e => { r with entries := r.entries ++ [e] }) ?_ (fun r e h => append_ne r.entries e (congrArg Filter.AFOs.entries h)) ?_ ?_
  · have key : ∀ (r : Filter.AFOs) a, { r with entries := Filter.pushAFO r.entries a } =
        (acceptAFO r.entries a).elim r fun e => { r with entries := r.entries ++ [e] } := by
      intro r a
      simp only [Filter.pushAFO, acceptAFO]
      split
      · rfl
      split
      · rfl
      · rfl
    intro r x hx
    cases x with
    | str s =>
      simp only [Filter.AFOs.push, List.foldl_cons, List.foldl_nil, Filter.AFOs.push1]
      cases Filter.parseAFO s with
      | error _ => rfl
      | ok a =>
        simp only
        split
        · exact key r a
        · next h => simp [acceptAFO, h]
    | afo a => exact key r a
    | other => rfl
  · intro r x e _ h
    cases x with
    | str s =>
      simp only at h ⊢
      cases hs : Filter.parseAFO s with
      | error _ => rfl
      | ok a => rw [hs] at h; exact acceptAFO_idem h
    | afo a => exact acceptAFO_idem h
    | other => rfl
  · intro r x e _ h
    cases x with
    | str s =>
      simp only at h ⊢
      cases hs : Filter.parseAFO s with
      | error _ => rfl
      | ok a => rw [hs] at h; exact acceptAFO_stable h
    | afo a => exact acceptAFO_stable h
    | other => rfl

/-- **C133**, the full claim for object identifiers. -/
def OidsSettle : Prop := ∀ (E : EqualFold) (d : Oid.DotReader), Settles Any (fun r x => Oid.OIDs.push E.eq d.read r [x])

/-- **C133** for object identifiers that hold dots and digits.  Missing: keywords, which are pushed each time. -/
theorem C133_oids_partial (E : EqualFold) (d : Oid.DotReader) :
    Settles (fun x => (∀ k, x ≠ .kw k) ∧ ∀ o t, x = .oid (some o) → o.dot = some t →
        t ≠ [] ∧ ∀ c ∈ t, c = 46 ∨ (48 ≤ c ∧ c ≤ 57))
      (fun r x => Oid.OIDs.push E.eq d.read r [x]) := by
  let acc : Oid.OIDs → Oid.ObjectIdentifier → Option Oid.Entry := fun r o =>
    if r.contains E.eq (.oid o) then none else if Oid.isZero o then none
    else if Oid.keyword o = some r.kw then some (.oid o) else none
  have idem : ∀ r o e, (∀ o' t, o = some o' → o'.dot = some t → t ≠ [] ∧ ∀ c ∈ t, c = 46 ∨ (48 ≤ c ∧ c ≤ 57)) →
      acc r o = some e → acc { r with entries := r.entries ++ [e] } o = none := by
    intro r o e ho h
    simp only [acc] at h ⊢
    split at h
    · cases h
    split at h
    · cases h
    next hz =>
    split at h
    · cases h
      refine if_pos ?_
      cases o with
      | none => exact absurd rfl hz
      | some o =>
        obtain ⟨kw, dot⟩ := o
        cases dot with
        | none => exact absurd rfl hz
        | some t =>
          obtain ⟨h1, h2⟩ := ho _ t rfl rfl
          have hst : Oid.string (some ⟨kw, some t⟩) = t := by
            rw [Oid.string, if_neg hz]; rfl
          have hb : t ≠ Oid.badDotNot := by
            intro e
            have := h2 60 (by rw [e]; decide)
            revert this; decide
          have hl : t.length ≠ 0 := fun e => h1 (List.eq_nil_of_length_eq_zero e)
          simp [Oid.OIDs.contains, Oid.candidate, hst, Oid.containsText, hl, hb, Oid.Entry.asOid, E.refl]
    · cases h
  have stable : ∀ r o e, acc r o = none → acc { r with entries := r.entries ++ [e] } o = none := by
    intro r o e h
    simp only [acc] at h ⊢
    split at h
    · next h1 =>
      refine if_pos ?_
      simp only [Oid.OIDs.contains, Oid.candidate, Oid.containsText] at h1 ⊢
      split at h1
      · cases h1
      · next h2 => rw [if_neg h2, List.any_append, h1]; rfl
    split
    · rfl
    split at h
    · next h2 => rw [if_pos h2]
    · next h2 =>
      rw [if_neg h2]
      split at h
      · cases h
      · next h3 => rw [if_neg h3]
  refine add_settles (fun r x => match x with
      | .str s => acc r (r.F d.read [.str s])
      | .oid o => acc r o
      | _ => none)
    (fun r e => { r with entries := r.entries ++ [e] }) ?_ (fun r e h => append_ne r.entries e (congrArg Oid.OIDs.entries h)) ?_ ?_
  · have key : ∀ (r : Oid.OIDs) o, r.pushEntry E.eq (.oid o) =
        (acc r o).elim r fun e => { r with entries := r.entries ++ [e] } := by
      intro r o
      simp only [Oid.OIDs.pushEntry, acc]
      split
      · rfl
      split
      · rfl
      split <;> rfl
    intro r x hx
    cases x with
    | str s => exact key r _
    | oid o => exact key r o
    | kw k => exact absurd rfl (hx.1 k)
    | other => rfl
  · intro r x e hx h
    cases x with
    | str s =>
      refine idem r _ e ?_ h
      intro o t ho ht
      have one : ∀ kw o, some (Oid.newObjectID d.read kw [.str s]).1 = some o → o.dot = some t → d.read s = some t := by
        intro kw o ho ht
        cases ho
        have e : (Oid.newObjectID d.read kw [.str s]).1.dot = d.read s := by
          unfold Oid.newObjectID
          show (if (d.read s).isSome = true then _ else _ : Oid.Oid × Bool).1.dot = _
          by_cases h : (d.read s).isSome = true
          · rw [if_pos h]; rfl
          · rw [if_neg h]; rfl
        rw [← e, ht]
      refine d.dots s t ?_
      rw [Oid.OIDs.F] at ho
      split at ho
      · exact one _ o ho ht
      · exact one _ o ho ht
    | oid o => exact idem r o e (fun o' t h => hx.2 o' t (by rw [h])) h
    | kw k => rfl
    | other => rfl
  · intro r x e hx h
    cases x with
    | str s => exact stable r _ e h
    | oid o => exact stable r o e h
    | kw k => rfl
    | other => rfl

/-- **C133**, the full claim for attribute types. -/
def AttributesSettle : Prop := ∀ E : EqualFold, Settles Any (fun r x => Attr.ATs.push E.eq r [x])

/-- **C133** for attribute types: whether one is in the list or not, it is added each time it is given.  Missing: the
claim itself, as the check for duplicates looks at another, empty list (C31). -/
theorem C133_attributes_partial (E : EqualFold) (es : List Attr.AttributeType) (a : Attr.AttributeType)
    (ha : Attr.AttributeType.isZero a = false) :
    Attr.ATs.push E.eq ⟨es, []⟩ [.at_ a] = ⟨es ++ [a], []⟩ := by
  simp [Attr.ATs.push, Attr.ATs.push1, Attr.castArg, Attr.pushPolicy, Attr.containsAT, ha]

/-! ## Examples -/

example : Rights.InRange (.int 2) ∧ Rights.InRange (.str b!"read") ∧
    Levels.isZero (some ⟨0#16, ⟨BindUAT, some ⟨some b!"manager", .nil⟩⟩⟩) = false ∧
    Condenses (Ins.string PB.plainWorld (Ins.labelled b!"a")) (Ins.string PB.plainWorld (Ins.labelled b!"a")) ∧
    Oid.string (some ⟨TargetExtOp, some b!"1.2"⟩) = b!"1.2" := by
  refine ⟨?_, ?_, by decide +kernel, (Verif.condenses_iff _ _).2 (by decide +kernel), by decide⟩
  · intro i h; cases h; omega
  · intro i h; cases h

/-- Three addresses, the first of them given again. -/
example : Net.IPAddr.set (Net.IPAddr.set (Net.IPAddr.set none [b!"10.1.1.1"]) [b!"10.1.1.2"]) [b!"10.1.1.1"] =
    some [b!"10.1.1.1", b!"10.1.1.2"] :=
  (C133_ips none b!"10.1.1.1" [b!"10.1.1.2"] trivial fun _ _ => trivial).trans (by decide +kernel)

/-! ## Bind rules -/

/-- **C133** for bind rules: they are added each time, but the stack holds in the same situations, if for the word NOT
it does not matter that a condition is there twice. -/
theorem C133_bind (stop p : Bool) (o : Bind.Word) (es : List Bind.BCtx) (x : Bind.BArg) (ys : List Bind.BArg)
    (neg : List Bool → Bool) (τ : Bind.BRule → Bool) (hn : ∀ l a, a ∈ l → neg (l ++ [a]) = neg l) :
    (Bind.BCtx.rules o p (Bind.pushB stop (ys.foldl (fun es y => Bind.pushB stop es [y]) (Bind.pushB stop es [x])) [x])).eval neg τ =
      (Bind.BCtx.rules o p (ys.foldl (fun es y => Bind.pushB stop es [y]) (Bind.pushB stop es [x]))).eval neg τ := by
  have one : ∀ es x, Bind.pushB stop es [x] = (Bind.acceptB x).elim es fun e => es ++ [e] := fun es x =>
    stackPush_one stop _ es x
  have keep : ∀ (ys : List Bind.BArg) (es : List Bind.BCtx) c, c ∈ es → c ∈ ys.foldl (fun es y => Bind.pushB stop es [y]) es := by
    intro ys
    induction ys with
    | nil => exact fun _ _ h => h
    | cons y ys ih =>
      intro es c h
      refine ih _ c ?_
      show c ∈ Bind.pushB stop es [y]
      rw [one]
      cases Bind.acceptB y with
      | none => exact h
      | some e => exact List.mem_append_left _ h
  cases h : Bind.acceptB x with
  | none => rw [one _ x, h]; rfl
  | some c =>
    have hm := keep ys (Bind.pushB stop es [x]) c (by rw [one, h]; exact List.mem_append_right _ (by simp))
    generalize ys.foldl (fun es y => Bind.pushB stop es [y]) (Bind.pushB stop es [x]) = r at hm
    rw [one r, h]
    simp only [Option.elim, Bind.BCtx.eval, Order.evals_map, List.map_append, List.map_cons, List.map_nil]
    have hm' := List.mem_map_of_mem (f := Bind.BCtx.eval neg τ) hm
    cases o with
    | not => exact hn _ _ hm'
    | and =>
      simp only [Bind.Word.eval]
      rw [Bool.eq_iff_iff]
      simp
      exact fun h => h c hm
    | or =>
      simp only [Bind.Word.eval]
      rw [Bool.eq_iff_iff]
      simp
      exact fun h => ⟨c, hm, h⟩

example : ∀ (l : List Bool) a, a ∈ l → (fun l : List Bool => !l.any id) (l ++ [a]) = (fun l : List Bool => !l.any id) l := by
  intro l a h
  simp only [List.any_append, List.any_cons, List.any_nil, Bool.or_false, id]
  cases a with
  | false => rw [Bool.or_false]
  | true =>
    have : l.any id = true := List.any_eq_true.2 ⟨true, h, rfl⟩
    rw [this]; rfl

/-! ## What fails -/

/-- **C133** fails for the levels of an inheritance without a pair, for instructions with two spaces in the label, for
keywords pushed to a list of object identifiers, for the operation of a filter operation, and for attribute types. -/
theorem C133_counterexample : ¬ LevelsSettle ∧ ¬ InstructionsSettle ∧ ¬ OidsSettle ∧ ¬ FiltersSettle ∧
    ¬ AttributesSettle := by
  refine ⟨?_, ?_, ?_, ?_, ?_⟩
  · intro h
    have := h none (.int 1) [.int 2] trivial fun _ _ => trivial
    revert this; decide +kernel
  · intro h
    have := congrArg List.length (h PB.plainWorld .ref rfl (fun _ => none) [] (.ins (Ins.labelled b!"a  b")) [] trivial fun _ _ => trivial)
    revert this; decide +kernel
  · intro h
    have := h .ref Oid.plainReader ⟨TargetExtOp, []⟩ (.kw TargetExtOp) [] trivial fun _ _ => trivial
    revert this; decide +kernel
  · intro h
    have := h ⟨[], []⟩ (.op 1) [.op 2] trivial fun _ _ => trivial
    revert this; decide +kernel
  · intro h
    have := congrArg (fun r => r.entries.length) (h .ref ⟨[], []⟩ (.str b!"cn") [] trivial fun _ _ => trivial)
    revert this; decide +kernel

end Verif.Again
