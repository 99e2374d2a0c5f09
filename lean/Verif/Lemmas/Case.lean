import Verif.Spec.Case
import Verif.Lemmas.Byte

/-!
# Letter case
-/

namespace Verif
open Verif.Spec

theorem lowerByte_ascii : ∀ c : Byte, Str.lowerByte c < 128 ↔ c < 128 := by decide +kernel

theorem lowerByte_idem : ∀ c : Byte, Str.lowerByte (Str.lowerByte c) = Str.lowerByte c := by
  decide +kernel

theorem lowerByte_upper : ∀ c : Byte, Str.lowerByte (Str.upperByte c) = Str.lowerByte c := by
  decide +kernel

theorem ascii_cons {a : Byte} {s : Str} (h : Str.IsAscii (a :: s)) : a < 128 ∧ Str.IsAscii s :=
  ⟨h a (by simp), fun c hc => h c (by simp [hc])⟩

theorem lower_ascii {s : Str} (h : Str.IsAscii s) : Str.lower s = s.map Str.lowerByte := by
  induction s using Str.lower.induct with
  | case1 => rfl
  | case2 a => rfl
  | case3 a b hab => exact absurd (h a (by simp)) (by rw [hab.1]; decide)
  | case4 a b hab ih => rw [Str.lower, if_neg hab, ih (ascii_cons h).2]; rfl
  | case5 a b c t hab ih => exact absurd (h a (by simp)) (by rw [hab.1]; decide)
  | case6 a b c t h1 hab ih => exact absurd (h a (by simp)) (by rw [hab.1]; decide)
  | case7 a b c t h1 h2 ih => rw [Str.lower, if_neg h1, if_neg h2, ih (ascii_cons h).2]; rfl

theorem fold_ascii {s : Str} (h : Str.IsAscii s) : Str.fold s = s.map Str.lowerByte := by
  induction s using Str.fold.induct with
  | case1 => rfl
  | case2 a => rfl
  | case3 a b hab => exact absurd (h a (by simp)) (by rw [hab.1]; decide)
  | case4 a b hab ih => rw [Str.fold, if_neg hab, ih (ascii_cons h).2]; rfl
  | case5 a b c t hab ih => exact absurd (h a (by simp)) (by rw [hab.1]; decide)
  | case6 a b c t h1 hab ih => exact absurd (h a (by simp)) (by rw [hab.1]; decide)
  | case7 a b c t h1 h2 ih => rw [Str.fold, if_neg h1, if_neg h2, ih (ascii_cons h).2]; rfl

theorem _root_.Verif.Spec.AnyCase.ascii {t s : Str} (h : AnyCase t s) (ht : Str.IsAscii t) :
    Str.IsAscii s := by
  intro c hc
  have : Str.lowerByte c ∈ t.map Str.lowerByte := by rw [← h]; exact List.mem_map_of_mem hc
  obtain ⟨d, hd, e⟩ := List.mem_map.1 this
  rw [← lowerByte_ascii, ← e, lowerByte_ascii]; exact ht d hd

theorem _root_.Verif.Spec.AnyCase.lower {t s : Str} (h : AnyCase t s) (ht : Str.IsAscii t) :
    Str.lower s = Str.lower t := by
  rw [lower_ascii ht, lower_ascii (h.ascii ht)]; exact h

theorem _root_.Verif.Spec.AnyCase.fold {t s : Str} (h : AnyCase t s) (ht : Str.IsAscii t) :
    Str.fold s = Str.fold t := by
  rw [fold_ascii ht, fold_ascii (h.ascii ht)]; exact h

theorem _root_.Verif.Spec.AnyCase.rfl {t : Str} : AnyCase t t := Eq.refl _

theorem _root_.Verif.Spec.AnyCase.symm {t s : Str} (h : AnyCase t s) : AnyCase s t := Eq.symm h

end Verif
