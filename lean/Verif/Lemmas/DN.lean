import Verif.Model.DNList
import Verif.Spec.DNList
import Verif.Lemmas.Lists
import Verif.Lemmas.Attr

/-!
# Facts about distinguished names and lists of them
-/

namespace Verif.DN
open Verif Verif.Spec Verif.DNList Verif.Uri

theorem chop_scheme (w : Str) : chopDNPfx (scheme ++ w) = w := by
  have : Str.hasPrefix (scheme ++ w) Levels.LocalScheme = true := Str.hasPrefix_iff.2 ⟨w, rfl⟩
  rw [chopDNPfx, if_pos this]; rfl

theorem chop_other {v : Str} (h : ∀ x, v ≠ scheme ++ x) : chopDNPfx v = v := by
  rw [chopDNPfx, if_neg]
  intro h'
  obtain ⟨r, hr⟩ := Str.hasPrefix_iff.1 h'
  exact h r hr

theorem chop_iff {v w : Str} : chopDNPfx v = w ↔ Bare v w := by
  by_cases h : ∃ x, v = scheme ++ x
  · obtain ⟨x, rfl⟩ := h
    rw [chop_scheme]
    constructor
    · rintro rfl; exact Or.inl rfl
    · rintro (h | ⟨_, h⟩)
      · exact (List.append_cancel_left h)
      · exact absurd rfl (h x)
  · have h' : ∀ x, v ≠ scheme ++ x := fun x e => h ⟨x, e⟩
    rw [chop_other h']
    constructor
    · rintro rfl; exact Or.inr ⟨rfl, h'⟩
    · rintro (h | ⟨h, _⟩)
      · exact absurd h (h' w)
      · exact h

theorem newDN_ne {v : Str} (h : v ≠ []) (kw : UInt8) : newDN v kw = ⟨kw, some (chopDNPfx v)⟩ := by
  rw [newDN, if_pos]; exact fun e => h (List.length_eq_zero_iff.1 e)

theorem newDN_nil (kw : UInt8) : newDN [] kw = ⟨kw, none⟩ := by simp [newDN]

/-- A set name with this keyword. -/
theorem named_iff (d : Option DName) (kw : UInt8) :
    (!isZero d && keyword d == some kw) = true ↔ ∃ w, d = some ⟨kw, some w⟩ := by
  rcases d with _ | ⟨k, _ | t⟩ <;> simp [isZero, keyword]

theorem pushBindArg_iff (kw : BindKeyword) (x : BArg) (e : BEntry) :
    pushBindArg kw x = some e ↔ bindOffer kw x e := by
  cases x with
  | str s =>
    by_cases h : s = []
    · subst h; simp [pushBindArg, bindOffer]
    · have : s.length > 0 := List.length_pos_iff.2 h
      simp only [pushBindArg, if_pos this, newDN_ne h, bindOffer]
      constructor
      · rintro he; injection he with he
        exact Or.inl ⟨s, _, rfl, h, chop_iff.1 rfl, he.symm⟩
      · rintro (⟨s', w, hs, _, hb, rfl⟩ | ⟨w, hs, _⟩ | ⟨u, hs, _⟩)
        · injection hs with hs; subst hs; rw [chop_iff.2 hb]
        · cases hs
        · cases hs
  | dn d =>
    simp only [pushBindArg, bindOffer]
    by_cases h : (!isZero d && keyword d == some kw) = true
    · rw [if_pos h]
      obtain ⟨w, rfl⟩ := (named_iff d kw).1 h
      constructor
      · intro he; injection he with he; exact Or.inr (Or.inl ⟨w, rfl, he.symm⟩)
      · rintro (⟨s', w', hs, _⟩ | ⟨w', hs, rfl⟩ | ⟨u, hs, _⟩)
        · cases hs
        · injection hs with hs; rw [hs]
        · cases hs
    · rw [if_neg h]
      constructor
      · intro he; cases he
      · rintro (⟨s', w', hs, _⟩ | ⟨w', hs, rfl⟩ | ⟨u, hs, _⟩)
        · cases hs
        · injection hs with hs; exact absurd ((named_iff d kw).2 ⟨w', hs⟩) h
        · cases hs
  | uri u =>
    simp only [pushBindArg, bindOffer]
    constructor
    · intro he; injection he with he; exact Or.inr (Or.inr ⟨u, rfl, he.symm⟩)
    · rintro (⟨s', w', hs, _⟩ | ⟨w', hs, rfl⟩ | ⟨u, hs, rfl⟩)
      · cases hs
      · cases hs
      · injection hs with hs; rw [hs]
  | other =>
    simp [pushBindArg, bindOffer]

theorem pushTargetArg_iff (kw : TargetKeyword) (x : TArg) (e : TargetDN) :
    pushTargetArg kw x = some e ↔ targetOffer kw x e := by
  cases x with
  | str s =>
    by_cases h : s = []
    · subst h; simp [pushTargetArg, targetOffer]
    · have : s.length > 0 := List.length_pos_iff.2 h
      simp only [pushTargetArg, if_pos this, newDN_ne h, targetOffer]
      constructor
      · rintro he; injection he with he
        exact Or.inl ⟨s, _, rfl, h, chop_iff.1 rfl, he.symm⟩
      · rintro (⟨s', w, hs, _, hb, rfl⟩ | ⟨w, hs, _⟩)
        · injection hs with hs; subst hs; rw [chop_iff.2 hb]
        · cases hs
  | dn d =>
    simp only [pushTargetArg, targetOffer]
    by_cases h : (!isZero d && keyword d == some kw) = true
    · rw [if_pos h]
      obtain ⟨w, rfl⟩ := (named_iff d kw).1 h
      constructor
      · intro he; injection he with he; exact Or.inr ⟨w, rfl, he.symm⟩
      · rintro (⟨s', w', hs, _⟩ | ⟨w', hs, rfl⟩)
        · cases hs
        · injection hs with hs; rw [hs]
    · rw [if_neg h]
      constructor
      · intro he; cases he
      · rintro (⟨s', w', hs, _⟩ | ⟨w', hs, rfl⟩)
        · cases hs
        · injection hs with hs; exact absurd ((named_iff d kw).2 ⟨w', hs⟩) h
  | other =>
    simp [pushTargetArg, targetOffer]

theorem pushEntry_eq (eq : Str → Str → Bool) (es : List BEntry) (e : BEntry) :
    pushEntry eq es e = addNew (fun a b => eq a.string b.string) es e := by
  simp [pushEntry, addNew, containsText, List.any_map, Function.comp_def]

theorem pushTargetEntry_eq (eq : Str → Str → Bool) (es : List TargetDN) (e : TargetDN) :
    pushTargetEntry eq es e
      = addNew (fun a b => eq (TargetDN.string a) (TargetDN.string b)) es e := by
  simp [pushTargetEntry, addNew, containsText, List.any_map, Function.comp_def]

theorem pushLoop_eq (eq : Str → Str → Bool) (kw : BindKeyword) (es : List BEntry) (xs : List BArg) :
    pushLoop eq kw es xs
      = (upToGap (xs.map (pushBindArg kw))).foldl (addNew fun a b => eq a.string b.string) es := by
  induction xs generalizing es with
  | nil => rfl
  | cons x xs ih =>
    rw [pushLoop, List.map_cons]
    cases e : pushBindArg kw x with
    | none => rfl
    | some e' => simp only [upToGap, List.foldl_cons]; rw [ih, pushEntry_eq]

theorem pushTargetLoop_eq (eq : Str → Str → Bool) (kw : TargetKeyword) (es : List TargetDN)
    (xs : List TArg) :
    pushTargetLoop eq kw es xs
      = (upToGap (xs.map (pushTargetArg kw))).foldl
          (addNew fun a b => eq (TargetDN.string a) (TargetDN.string b)) es := by
  induction xs generalizing es with
  | nil => rfl
  | cons x xs ih =>
    rw [pushTargetLoop, List.map_cons]
    cases e : pushTargetArg kw x with
    | none => rfl
    | some e' => simp only [upToGap, List.foldl_cons]; rw [ih, pushTargetEntry_eq]

theorem push_kw (eq : Str → Str → Bool) (h : List (List BArg)) (r : BDNs) :
    (h.foldl (BDNs.push eq) r).kw = r.kw := by
  induction h generalizing r with
  | nil => rfl
  | cons c h ih => rw [List.foldl_cons, ih]; rfl

theorem push_entries (eq : Str → Str → Bool) (h : List (List BArg)) (r : BDNs) :
    (h.foldl (BDNs.push eq) r).entries
      = (h.flatMap fun xs => upToGap (xs.map (pushBindArg r.kw))).foldl
          (addNew fun a b => eq a.string b.string) r.entries := by
  rw [← foldl_addNew_flatMap]
  induction h generalizing r with
  | nil => rfl
  | cons c h ih => rw [List.foldl_cons, ih, List.foldl_cons]; simp only [BDNs.push, pushLoop_eq]

theorem pushT_kw (eq : Str → Str → Bool) (h : List (List TArg)) (r : TDNs) :
    (h.foldl (TDNs.push eq) r).kw = r.kw := by
  induction h generalizing r with
  | nil => rfl
  | cons c h ih => rw [List.foldl_cons, ih]; rfl

theorem pushT_entries (eq : Str → Str → Bool) (h : List (List TArg)) (r : TDNs) :
    (h.foldl (TDNs.push eq) r).entries
      = (h.flatMap fun xs => upToGap (xs.map (pushTargetArg r.kw))).foldl
          (addNew fun a b => eq (TargetDN.string a) (TargetDN.string b)) r.entries := by
  rw [← foldl_addNew_flatMap]
  induction h generalizing r with
  | nil => rfl
  | cons c h ih => rw [List.foldl_cons, ih, List.foldl_cons]; simp only [TDNs.push, pushTargetLoop_eq]

theorem mem_upToGap {α : Type} {l : List (Option α)} {a : α} (h : a ∈ upToGap l) : some a ∈ l := by
  induction l with
  | nil => simp [upToGap] at h
  | cons x l ih =>
    cases x with
    | none => simp [upToGap] at h
    | some b =>
      simp only [upToGap, List.mem_cons] at h
      rcases h with rfl | h
      · simp
      · simp [ih h]

theorem containsStr1 (s : Str) (c : Byte) : Str.containsStr s [c] = true ↔ c ∈ s := by
  induction s with
  | nil => simp [Str.containsStr, Str.hasPrefix]
  | cons a t ih =>
    rw [Str.containsStr, Bool.or_eq_true, ih]
    simp only [Str.hasPrefix, Bool.and_true, beq_iff_eq, List.mem_cons]
    exact or_congr_left eq_comm

end Verif.DN
