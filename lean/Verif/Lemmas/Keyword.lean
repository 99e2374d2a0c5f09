import Verif.Model.Keyword
import Verif.Spec.Keyword

namespace Verif
open Verif Verif.Misc Verif.Spec

theorem eqFold_iff (a b : Str) : Str.eqFold a b = true ↔ Str.fold a = Str.fold b := by
  simp [Str.eqFold]

theorem matchOn_mem {m : List (UInt8 × Str)} {kw : Str} (h : matchOn m kw ≠ 0) :
    ∃ n, (matchOn m kw, n) ∈ m ∧ Str.eqFold kw n = true := by
  induction m with
  | nil => exact absurd rfl h
  | cons e t ih =>
    unfold matchOn at h ⊢
    split
    · rename_i he; exact ⟨e.2, by simp, he⟩
    · rename_i he
      rw [if_neg he] at h
      obtain ⟨n, h1, h2⟩ := ih h
      exact ⟨n, by simp [h1], h2⟩

/-- Different entries of the table fold differently. -/
def FoldDistinct (m : List (UInt8 × Str)) : Prop :=
  ∀ e ∈ m, ∀ f ∈ m, Str.fold e.2 = Str.fold f.2 → e = f

theorem matchOn_of_mem {m : List (UInt8 × Str)} {kw : Str} (hd : FoldDistinct m)
    {e : UInt8 × Str} (he : e ∈ m) (h : Str.eqFold kw e.2 = true) : matchOn m kw = e.1 := by
  induction m with
  | nil => cases he
  | cons f t ih =>
    unfold matchOn
    split
    · rename_i hf
      have := hd f (by simp) e he (((eqFold_iff _ _).1 hf).symm.trans ((eqFold_iff _ _).1 h))
      rw [this]
    · rename_i hf
      rcases List.mem_cons.1 he with rfl | he
      · exact absurd h hf
      · exact ih (fun a ha b hb => hd a (by simp [ha]) b (by simp [hb])) he

theorem FoldDistinct.perm {m m' : List (UInt8 × Str)} (h : FoldDistinct m) (p : m'.Perm m) :
    FoldDistinct m' :=
  fun e he f hf => h e (p.mem_iff.1 he) f (p.mem_iff.1 hf)

theorem matchOn_none {m : List (UInt8 × Str)} {kw : Str}
    (h : ∀ e ∈ m, Str.eqFold kw e.2 = false) : matchOn m kw = 0 := by
  induction m with
  | nil => rfl
  | cons f t ih =>
    unfold matchOn
    rw [if_neg (by simp [h f (by simp)])]
    exact ih fun e he => h e (by simp [he])

instance (m : List (UInt8 × Str)) : Decidable (FoldDistinct m) := by
  unfold FoldDistinct; infer_instance

theorem bkw_distinct : FoldDistinct bkwMap := by decide +kernel
theorem tkw_distinct : FoldDistinct tkwMap := by decide +kernel
theorem bt_distinct : FoldDistinct btMap := by decide +kernel

theorem strInSliceFold_iff (s : Str) (l : List Str) :
    strInSliceFold s l = true ↔ ∃ t ∈ l, Str.eqFold s t = true := by
  induction l with
  | nil => simp [strInSliceFold]
  | cons a t ih =>
    unfold strInSliceFold
    by_cases h : Str.eqFold s a = true
    · simp [h]
    · simp [h, ih]

/-- The number of an operator as a value of the Go type. -/
def relConst : Rel → Cop
  | .eq => Eq' | .ne => Ne' | .lt => Lt' | .gt => Gt' | .le => Le' | .ge => Ge'

theorem relConst_texts (r : Rel) :
    [Cop.string (relConst r), Cop.context (relConst r), Cop.description (relConst r)] = r.texts := by
  cases r <;> decide

theorem relConst_inj {r q : Rel} (h : relConst r = relConst q) : r = q := by
  cases r <;> cases q <;> first | rfl | (exact absurd h (by decide))

theorem relConst_ne (r : Rel) : relConst r ≠ 0 := by cases r <;> decide

def relAll : List Rel := [.eq, .ne, .lt, .gt, .le, .ge]

theorem mem_relAll (r : Rel) : r ∈ relAll := by cases r <;> decide

theorem texts_distinct : ∀ r ∈ relAll, ∀ q ∈ relAll, ∀ a ∈ r.texts, ∀ b ∈ q.texts,
    Str.fold a = Str.fold b → r = q := by decide +kernel

theorem valid_cop_iff (c : Cop) : Cop.valid c = true ↔ ∃ r, relConst r = c := by
  constructor
  · intro h
    have : ∀ n < 256, Cop.valid (UInt8.ofNat n) = true → ∃ r ∈ relAll, relConst r = UInt8.ofNat n := by
      decide +kernel
    obtain ⟨r, _, hr⟩ := this c.toNat (UInt8.toNat_lt c) (by simpa using h)
    exact ⟨r, by simpa using hr⟩
  · rintro ⟨r, rfl⟩; cases r <;> decide

/-- Text `s` stands for operator `r`. -/
theorem text_unique {s : Str} {r q : Rel} (hr : ∃ t ∈ r.texts, Str.eqFold s t = true)
    (hq : ∃ t ∈ q.texts, Str.eqFold s t = true) : r = q := by
  obtain ⟨a, ha, h1⟩ := hr
  obtain ⟨b, hb, h2⟩ := hq
  exact texts_distinct r (mem_relAll r) q (mem_relAll q) a ha b hb
    (((eqFold_iff _ _).1 h1).symm.trans ((eqFold_iff _ _).1 h2))

theorem matchCOPOn_eq {m : List Cop} (hm : ∀ c ∈ m, ∃ r, relConst r = c) {s : Str} {r : Rel}
    (hr : ∃ t ∈ r.texts, Str.eqFold s t = true) (hmem : relConst r ∈ m) :
    matchCOPOn m s = relConst r := by
  induction m with
  | nil => cases hmem
  | cons v t ih =>
    obtain ⟨q, rfl⟩ := hm v (by simp)
    unfold matchCOPOn
    rw [relConst_texts]
    by_cases h : strInSliceFold s q.texts = true
    · rw [if_pos h]
      rw [text_unique hr ((strInSliceFold_iff _ _).1 h)]
    · rw [if_neg h]
      rcases List.mem_cons.1 hmem with he | he
      · exfalso; apply h
        rw [← relConst_inj he]
        exact (strInSliceFold_iff _ _).2 hr
      · exact ih (fun c hc => hm c (by simp [hc])) he

theorem matchCOPOn_zero {m : List Cop} (hm : ∀ c ∈ m, ∃ r, relConst r = c) {s : Str}
    (h : ∀ r : Rel, ∀ t ∈ r.texts, Str.eqFold s t = false) : matchCOPOn m s = 0 := by
  induction m with
  | nil => rfl
  | cons v t ih =>
    obtain ⟨q, rfl⟩ := hm v (by simp)
    unfold matchCOPOn
    rw [relConst_texts, if_neg]
    · exact ih fun c hc => hm c (by simp [hc])
    · intro hh
      obtain ⟨t, ht, h1⟩ := (strInSliceFold_iff _ _).1 hh
      rw [h q t ht] at h1; cases h1

theorem copMap_rel : ∀ c ∈ copMap, ∃ r, relConst r = c := by
  intro c hc
  have : ∀ c ∈ copMap, ∃ r ∈ relAll, relConst r = c := by decide
  obtain ⟨r, _, h⟩ := this c hc
  exact ⟨r, h⟩

theorem relConst_mem (r : Rel) : relConst r ∈ copMap := by cases r <;> decide

theorem toU8_relConst (r : Rel) : toU8 (r.number : Int) = relConst r := by cases r <;> decide

theorem toU8_nat (n : Nat) : toU8 (n : Int) = UInt8.ofNat n := by
  unfold toU8
  have : ((n : Int) % 256).toNat = n % 256 := by omega
  rw [this]
  apply UInt8.toNat_inj.1
  simp

theorem toU8_eq_iff (i : Int) (r : Rel) : toU8 i = relConst r ↔ i % 256 = r.number := by
  constructor
  · intro h
    have h1 := congrArg UInt8.toNat h
    unfold toU8 at h1
    have h0 : 0 ≤ i % 256 := Int.emod_nonneg _ (by decide)
    have h2 : i % 256 < 256 := Int.emod_lt_of_pos _ (by decide)
    rw [UInt8.toNat_ofNat_of_lt' (by rw [UInt8.size]; omega)] at h1
    have h3 : (relConst r).toNat = r.number := by cases r <;> decide
    rw [h3] at h1
    omega
  · intro h
    unfold toU8
    rw [h]
    cases r <;> decide

end Verif
