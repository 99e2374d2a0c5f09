import Verif.Props.InsForce
import Verif.Props.RulesForce
import Verif.Props.DN

/-!
# `Pop` gives back what was pushed, the last first (C148)
-/

namespace Verif.LastFirst
open Verif Verif.Spec

/-- A number of calls of `Pop`: what is left, and what the calls returned, in order. -/
def pops {L R : Type} (pop : L → L × R) : Nat → L → L × List R
  | 0, l => (l, [])
  | n + 1, l => ((pops pop n (pop l).1).1, (pop l).2 :: (pops pop n (pop l).1).2)

/-- A list that loses its last entry with each call. -/
theorem pops_back {L R E : Type} (pop : L → L × R) (of : List E → L) (out : E → R)
    (h : ∀ es e, pop (of (es ++ [e])) = (of es, out e)) (es : List E) :
    ∀ ys : List E, pops pop ys.length (of (es ++ ys)) = (of es, (ys.map out).reverse) := by
  intro ys
  suffices H : ∀ n (ys : List E), ys.length = n → pops pop n (of (es ++ ys)) = (of es, (ys.map out).reverse) from H _ ys rfl
  intro n
  induction n with
  | zero =>
    intro ys hy
    rw [List.length_eq_zero_iff.1 hy]
    simp [pops]
  | succ n ih =>
    intro ys hy
    rcases List.eq_nil_or_concat ys with rfl | ⟨l, a, rfl⟩
    · cases hy
    · rw [List.concat_eq_append] at hy ⊢
      have hl : l.length = n := by simpa using hy
      rw [← List.append_assoc, pops, h, ih l hl]
      simp

/-- **C148**, bind rules: after a call of `Push` that goes on after refused arguments, as many calls of `Pop` as there were
usable arguments return these, the last first, and leave the stack as it was. -/
theorem C148_bind_rules (es : List Bind.BCtx) (xs : List Bind.BArg) (cs : List Bind.BCtx) (h : Bind.AddsAll xs cs) :
    pops Bind.popB cs.length (Bind.pushB false es xs) = (es, (cs.map some).reverse) := by
  rw [(Bind.C48_push es xs cs h).1]
  exact pops_back Bind.popB id some (fun es e => by simp [Bind.popB]) es cs

/-- **C148**, bind rules, a call that ends at a refused argument: some of the first usable arguments are returned. -/
theorem C148_bind_rules_stop (es : List Bind.BCtx) (xs : List Bind.BArg) (cs : List Bind.BCtx) (h : Bind.AddsAll xs cs) :
    ∃ ds, ds <+: cs ∧ pops Bind.popB ds.length (Bind.pushB true es xs) = (es, (ds.map some).reverse) := by
  obtain ⟨-, n, h2, -⟩ := Bind.C48_push es xs cs h
  refine ⟨cs.take n, List.take_prefix n cs, ?_⟩
  rw [h2]
  exact pops_back Bind.popB id some (fun es e => by simp [Bind.popB]) es _

/-- **C148**, target rules: the first rule of each keyword is returned, the last first, and no other is left. -/
theorem C148_target_rules (stop : Bool) (xs : List Rules.TRArg) (ps : List (Rules.TRule × TKw)) (h : Picks Rules.Offers xs ps) :
    pops Rules.TRs.pop (firsts Rules.sameKey ps).length (xs.foldl (fun es x => Rules.TRs.push stop es [x]) []) =
      ([], ((firsts Rules.sameKey ps).map (·.1)).reverse) := by
  rw [Rules.C43_content stop xs ps h]
  have := pops_back Rules.TRs.pop id id (fun es e => by simp [Rules.TRs.pop]) [] ((firsts Rules.sameKey ps).map (·.1))
  simpa using this

/-- **C148**, permission bind rules: the first rule of each text is returned, the last first, and no other is left. -/
theorem C148_permission_bind_rules (w : PB.World) (E : EqualFold) (hE : w.env.eq = E.eq) (rd : Str → Option PB.Store)
    (xs : List PB.PArg) (rs : List PB.PBRule) (h : Picks (PB.Offers rd) xs rs) :
    pops PB.pop (firsts (PB.sameText w) rs).length (xs.foldl (fun es x => PB.push w rd es [x]) []) =
      ([], (firsts (PB.sameText w) rs).reverse) := by
  rw [PB.C49_content w E hE rd xs rs h]
  have := pops_back PB.pop id id (fun es e => by simp [PB.pop]) [] (firsts (PB.sameText w) rs)
  simpa using this

/-- The instruction that an argument stands for, as such or as text. -/
def named (rd : Str → Option Ins.Instruction) : Ins.IArg → Option Ins.Instruction
  | .ins i => some i
  | .str s => rd s
  | .other => none

theorem push_one (w : PB.World) (rd : Str → Option Ins.Instruction) (es : List Ins.Instruction) (x : Ins.IArg) :
    Ins.push w rd es [x] = es ∨ ∃ i, named rd x = some i ∧ Ins.push w rd es [x] = es ++ [i] := by
  have one : ∀ i, Ins.push1 w es (.ins i) = es ∨ Ins.push1 w es (.ins i) = es ++ [i] := by
    intro i
    simp only [Ins.push1, stackPush]
    cases ha : Ins.accept w es (.ins i) with
    | none => exact .inl rfl
    | some e =>
      refine .inr ?_
      simp only [Ins.accept, Ins.acceptType] at ha
      repeat' split at ha
      all_goals first | (cases ha; done) | (cases ha; rfl)
  cases x with
  | ins i => exact (one i).imp id fun h => ⟨i, rfl, h⟩
  | str s =>
    simp only [Ins.push, List.foldl, Ins.pushOne, named]
    cases rd s with
    | none => exact .inl rfl
    | some i => exact (one i).imp id fun h => ⟨i, rfl, h⟩
  | other =>
    refine .inl ?_
    simp only [Ins.push, List.foldl, Ins.pushOne, Ins.push1, stackPush]
    cases ha : Ins.accept w es .other with
    | none => rfl
    | some e =>
      simp only [Ins.accept, Ins.acceptType] at ha
      split at ha <;> cases ha

/-- **C148**, instructions: as many calls as `Push` made the list longer return instructions that were given to it, as such or as
text, the last first, and leave the list as it was. -/
theorem C148_instructions (w : PB.World) (rd : Str → Option Ins.Instruction) (es : List Ins.Instruction) (xs : List Ins.IArg) :
    ∃ ys : List Ins.Instruction, ys.Sublist (xs.filterMap (named rd)) ∧
      pops Ins.pop ((Ins.push w rd es xs).length - es.length) (Ins.push w rd es xs) = (es, ys.reverse) := by
  have key : ∀ (xs : List Ins.IArg) (es : List Ins.Instruction), ∃ ys : List Ins.Instruction,
      ys.Sublist (xs.filterMap (named rd)) ∧ Ins.push w rd es xs = es ++ ys := by
    intro xs
    induction xs with
    | nil => exact fun es => ⟨[], by simp, by simp [Ins.push]⟩
    | cons x xs ih =>
      intro es
      obtain ⟨ys, h1, h2⟩ := ih (Ins.push w rd es [x])
      have hc : Ins.push w rd es (x :: xs) = Ins.push w rd (Ins.push w rd es [x]) xs := rfl
      rcases push_one w rd es x with h | ⟨i, hi, h⟩
      · refine ⟨ys, ?_, by rw [hc, h2, h]⟩
        cases hx : named rd x with
        | none => simpa [List.filterMap_cons, hx] using h1
        | some i => simpa [List.filterMap_cons, hx] using h1.cons i
      · refine ⟨i :: ys, ?_, by rw [hc, h2, h]; simp⟩
        simpa [List.filterMap_cons, hi] using h1
  obtain ⟨ys, h1, h2⟩ := key xs es
  refine ⟨ys, h1, ?_⟩
  have hl : (Ins.push w rd es xs).length - es.length = ys.length := by rw [h2]; simp
  rw [hl, h2]
  have := pops_back Ins.pop id id (fun es e => by simp [Ins.pop]) es ys
  simpa using this

/-- **C148**, target names: the first name of each text is returned, the last first, and the list keeps its keyword. -/
theorem C148_target_names (F : EqualFold) (kw : TargetKeyword) (calls : List (List DNList.TArg)) (offered : List DN.TargetDN)
    (h : HistOffers (targetOffer kw) calls offered) :
    pops DNList.TDNs.pop (firsts (DN.sameTargetText F) offered).length (calls.foldl (DNList.TDNs.push F.eq) ⟨kw, []⟩) =
      (⟨kw, []⟩, (firsts (DN.sameTargetText F) offered).reverse) := by
  have hk : ∀ (calls : List (List DNList.TArg)) (r : DNList.TDNs), (calls.foldl (DNList.TDNs.push F.eq) r).kw = r.kw := by
    intro calls
    induction calls with
    | nil => exact fun r => rfl
    | cons c calls ih => exact fun r => by rw [List.foldl_cons, ih]; rfl
  have e : calls.foldl (DNList.TDNs.push F.eq) ⟨kw, []⟩ = ⟨kw, firsts (DN.sameTargetText F) offered⟩ := by
    have h1 := (DN.C34_target_entries F kw calls).2 offered h
    have h2 := hk calls ⟨kw, []⟩
    revert h1 h2
    cases calls.foldl (DNList.TDNs.push F.eq) ⟨kw, []⟩
    intro h1 h2
    simp only at h1 h2
    rw [h1, h2]
  rw [e]
  have := pops_back DNList.TDNs.pop (fun l => (⟨kw, l⟩ : DNList.TDNs)) id (fun es e => by simp [DNList.TDNs.pop]) []
    (firsts (DN.sameTargetText F) offered)
  simpa using this

/-! ## Cases that meet the hypotheses -/

example : Bind.AddsAll [.ctx (.rule RulesForce.ssfRule), .other, .ctx (.rules .or false [])]
    [.rule RulesForce.ssfRule, .rules .or false []] :=
  .take ⟨.ssf, by decide +kernel⟩ (.skip (fun c h => by cases h) (.take trivial .nil))

example : pops Rules.TRs.pop 2 ([Rules.TRArg.rule RulesForce.scopeRule, .other, .rule (RulesForce.filterRule b!"(a=b)")].foldl
    (fun es x => Rules.TRs.push true es [x]) []) = ([], [RulesForce.filterRule b!"(a=b)", RulesForce.scopeRule]) :=
  C148_target_rules true _ [(RulesForce.scopeRule, .targetscope), (RulesForce.filterRule b!"(a=b)", .targetfilter)]
    (.take ⟨rfl, RulesForce.scope_has⟩ (.skip (fun e h => by cases h.1) (.take ⟨rfl, RulesForce.filter_has _⟩ .nil)))

/-- Two names given as values, in two calls. -/
example : HistOffers (targetOffer Target) [[.dn (some ⟨Target, some b!"cn=a"⟩)], [.dn (some ⟨Target, some b!"cn=b"⟩)]]
    [some ⟨Target, some b!"cn=a"⟩, some ⟨Target, some b!"cn=b"⟩] :=
  .cons (.cons (.inr ⟨_, rfl, rfl⟩) .nil) (.cons (es := [_]) (fs := []) (.cons (.inr ⟨_, rfl, rfl⟩) .nil) .nil)

/-- Two rules of different texts. -/
example : Picks (PB.Offers fun _ => none) [.rule (PB.sampleRule b!"ssf"), .nil, .rule (PB.sampleRule b!"ip")]
    [PB.sampleRule b!"ssf", PB.sampleRule b!"ip"] := by
  have hc : ∀ k, PB.Offers (fun _ => none) (.rule (PB.sampleRule k)) (PB.sampleRule k) := fun k => ⟨⟨_, _, rfl⟩, .inl rfl⟩
  refine .take (hc _) (.skip ?_ (.take (hc _) .nil))
  rintro e ⟨-, h | ⟨s, st, h, -⟩⟩ <;> cases h

end Verif.LastFirst
