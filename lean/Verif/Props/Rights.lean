import Verif.Lemmas.Rights

/-!
# C01 to C05: permissions
-/

namespace Verif.Rights
open Verif Verif.Spec

/-- The exported constant of each right. -/
def const : Priv → Right
  | .read => ReadAccess | .write => WriteAccess | .add => AddAccess | .delete => DeleteAccess
  | .search => SearchAccess | .compare => CompareAccess | .selfwrite => SelfWriteAccess
  | .proxy => ProxyAccess | .import_ => ImportAccess | .export_ => ExportAccess

/-- An argument mentions a right: as part of a number or `Right` read as a sum of
the documented values, or by name in any letter case. -/
def Mentions (p : Priv) : Arg → Prop
  | .int i => p.InSum i.toNat
  | .right r => p.InSum r.toNat
  | .str s => p.NamedBy (Str.lower s)
  | .other => False

/-- An argument denotes exactly the right `p`. -/
def Denotes (p : Priv) : Arg → Prop
  | .int i => i = p.weight
  | .right r => r = const p
  | .str s => Str.lower s = p.name
  | .other => False

/-- An integer argument is in the range of the 16-bit word. -/
def InRange (a : Arg) : Prop := ∀ i, a = .int i → 0 ≤ i ∧ i < 65536

/-- A call of `Shift` or `Unshift`. -/
inductive Call where
  | shift (x : List Arg)
  | unshift (x : List Arg)

def Call.args : Call → List Arg
  | .shift x => x
  | .unshift x => x

/-- The call, on the model. -/
def Call.run (S : Shifty 16) (p : Permission) : Call → Permission
  | .shift x => Rights.shift S p x
  | .unshift x => Rights.unshift S p x

/-- The call as a list of single operations, one for each argument. -/
def Call.ops : Call → List (Op Arg)
  | .shift x => x.map fun a => ⟨true, a⟩
  | .unshift x => x.map fun a => ⟨false, a⟩

/-- `Allow` or `Deny`. -/
def make (S : Shifty 16) (allow : Bool) (x : List Arg) : Permission :=
  if allow then Allow S x else Deny S x

private def step (S : Shifty 16) (v : BitVec 16) (o : Op Arg) : BitVec 16 :=
  if o.on then shift1 S v o.arg else unshift1 S v o.arg

private theorem run_cell (S : Shifty 16) (c : Cell) (k : Call) :
    k.run S (some c) = some { c with bits := k.ops.foldl (step S) c.bits } := by
  cases k <;> simp [Call.run, Call.ops, shift, unshift, step, List.foldl_map]

private theorem runs_cell (S : Shifty 16) (c : Cell) (h : List Call) :
    h.foldl (Call.run S) (some c) =
      some { c with bits := (h.flatMap Call.ops).foldl (step S) c.bits } := by
  induction h generalizing c with
  | nil => rfl
  | cons k t ih => simp [run_cell, ih]

private theorem const_eq (p : Priv) : const p = BitVec.twoPow 16 (idx p) := by
  cases p <;> decide

private theorem positive_denotes (S : Shifty 16) (c : Cell) (p : Priv) (x : Arg)
    (hx : Denotes p x) : positive S (some c) x = c.bits.getLsbD (idx p) := by
  have hlt : idx p < 16 := by have := idx_lt p; omega
  cases x with
  | int i =>
    simp only [Denotes] at hx
    subst hx
    simp only [positive]
    rw [weight_eq, positiveInt_bit S c _ hlt]
  | right r =>
    simp only [Denotes] at hx
    subst hx
    rw [const_eq, positive_bit S c _ hlt]
  | str s =>
    simp only [Denotes] at hx
    have := positive_bit S c (idx p) hlt
    simp only [positive] at this ⊢
    rw [hx, rightsNames_name]
    exact this
  | other => exact absurd hx (by simp [Denotes])

private theorem ops_range (h : List Call) (hr : ∀ k ∈ h, ∀ a ∈ k.args, InRange a) :
    ∀ o ∈ h.flatMap Call.ops, InRange o.arg := by
  intro o ho
  obtain ⟨k, hk, ho⟩ := List.mem_flatMap.1 ho
  have := hr k hk
  cases k <;> simp only [Call.ops, List.mem_map] at ho <;> obtain ⟨a, ha, rfl⟩ := ho <;>
    exact this a ha

private theorem fold_bit (S : Shifty 16) (p : Priv) (v : BitVec 16) (h : List (Op Arg))
    (hr : ∀ o ∈ h, InRange o.arg) :
    (h.foldl (step S) v).getLsbD (idx p) = true ↔
      HeldAfter (Mentions p) (v.getLsbD (idx p) = true) h := by
  refine fold_heldAfter (step S) (fun v => v.getLsbD (idx p) = true) InRange (Mentions p) ?_ v h hr
  intro v o ho
  have hb := shift1_bit S v o.arg p
    (fun i hi => ⟨(ho i hi).1, by have := (ho i hi).2; simpa using this⟩) (Mentions p)
    (fun _ => Iff.rfl) (fun _ => Iff.rfl) (fun _ => Iff.rfl) Iff.rfl
  by_cases hon : o.on = true
  · simp only [step, hon, if_true, hb.1]
    constructor
    · rintro (h | h)
      · exact Or.inl ⟨h, trivial⟩
      · by_cases hm : Mentions p o.arg
        · exact Or.inl ⟨hm, trivial⟩
        · exact Or.inr ⟨hm, h⟩
    · rintro (⟨h, _⟩ | ⟨_, h⟩)
      · exact Or.inl h
      · exact Or.inr h
  · have hon : o.on = false := by simpa using hon
    simp [step, hon, hb.2]

/-- **C01.** Take any permission in storage `c`, and any history of `Shift` and
`Unshift` calls.  Asked with any argument denoting a right, `Positive` is true
afterwards exactly when the last operation mentioning the right granted it, or it
was granted before and no operation mentions it. -/
theorem C01_last_mention_wins (S : Shifty 16) (c : Cell) (h : List Call)
    (hr : ∀ k ∈ h, ∀ a ∈ k.args, InRange a) (p : Priv) (x y : Arg) (hx : Denotes p x)
    (hy : Denotes p y) :
    positive S (h.foldl (Call.run S) (some c)) x = true ↔
      HeldAfter (Mentions p) (positive S (some c) y = true) (h.flatMap Call.ops) := by
  rw [runs_cell, positive_denotes S _ p x hx, positive_denotes S _ p y hy]
  exact fold_bit S p c.bits _ (ops_range h hr)

/-- **C01**, from the constructors on: the arguments of `Allow` or `Deny` are the
first grants of the history. -/
theorem C01_from_constructor (S : Shifty 16) (allow : Bool) (init : List Arg) (h : List Call)
    (hr : ∀ k ∈ Call.shift init :: h, ∀ a ∈ k.args, InRange a) (p : Priv) (x : Arg)
    (hx : Denotes p x) :
    positive S (h.foldl (Call.run S) (make S allow init)) x = true ↔
      HeldAfter (Mentions p) False ((Call.shift init :: h).flatMap Call.ops) := by
  have hm : make S allow init = (Call.shift init).run S (some ⟨allow, 0#16⟩) := by
    cases allow <;> rfl
  have := C01_last_mention_wins S ⟨allow, 0#16⟩ (Call.shift init :: h) hr p x x hx hx
  rw [List.foldl_cons, ← hm] at this
  rw [this, positive_denotes S _ p x hx]
  exact HeldAfter.congr (fun _ => Iff.rfl) (by simp) _

/-- The flag a permission stores: it allows, it denies, or it is unset. -/
def stored (p : Permission) : Option Bool := p.map Cell.disp

/-- **C01.** No history changes the disposition, or makes an unset permission set. -/
theorem C01_disposition_kept (S : Shifty 16) (p : Permission) (h : List Call) :
    stored (h.foldl (Call.run S) p) = stored p ∧
      disposition (h.foldl (Call.run S) p) = disposition p ∧
      (p = none → h.foldl (Call.run S) p = none) := by
  cases p with
  | some c => rw [runs_cell]; exact ⟨rfl, rfl, by simp⟩
  | none =>
    have : h.foldl (Call.run S) none = none := by
      induction h with
      | nil => rfl
      | cons k t ih => cases k <;> simpa [Call.run, shift, unshift] using ih
    simp [this]

/-- `Allow` allows and `Deny` denies; the zero permission does neither and says so. -/
theorem C01_disposition_made (S : Shifty 16) (x : List Arg) :
    stored (Allow S x) = some true ∧ stored (Deny S x) = some false ∧
    disposition (Allow S x) = b!"allow" ∧ disposition (Deny S x) = b!"deny" ∧
    disposition none = b!"<unknown_disposition>" :=
  ⟨rfl, rfl, rfl, rfl, rfl⟩

private theorem none_of (s : Str) (hn : Str.lower s ≠ b!"none") (hs : ∀ q : Priv, ¬ q.NamedBy (Str.lower s)) :
    rightsNames (Str.lower s) = none := by
  cases h : rightsNames (Str.lower s) with
  | none => rfl
  | some r =>
    exfalso
    have hm := rightsNames_eq_some h
    have : ∀ e ∈ rightsMap, e.2 = b!"none" ∨ ∃ q ∈ Priv.all, q.NamedBy e.2 := by decide +kernel
    rcases this _ hm with h1 | ⟨q, _, h1⟩
    · exact hn h1
    · exact hs q h1

/-- **C01.** Names that are neither rights, nor `all`, nor `none`, and values of
foreign types, change nothing at all. -/
theorem C01_unknown_ignored (S : Shifty 16) (p : Permission) (k : Call)
    (hk : ∀ a ∈ k.args, a = .other ∨ ∃ s, a = .str s ∧ Str.lower s ≠ b!"none" ∧
      ∀ q : Priv, ¬ q.NamedBy (Str.lower s)) :
    k.run S p = p := by
  have fix : ∀ (x : List Arg), (∀ a ∈ x, a = .other ∨ ∃ s, a = .str s ∧ Str.lower s ≠ b!"none" ∧
      ∀ q : Priv, ¬ q.NamedBy (Str.lower s)) → ∀ v, x.foldl (shift1 S) v = v ∧ x.foldl (unshift1 S) v = v := by
    intro x
    induction x with
    | nil => intro _ v; exact ⟨rfl, rfl⟩
    | cons a t ih =>
      intro h v
      have h1 : shift1 S v a = v ∧ unshift1 S v a = v := by
        rcases h a (by simp) with rfl | ⟨s, rfl, h2, h3⟩
        · exact ⟨rfl, rfl⟩
        · simp [shift1, unshift1, none_of s h2 h3]
      have := ih (fun b hb => h b (by simp [hb])) v
      simp [h1, this]
  cases p with
  | none => cases k <;> rfl
  | some c =>
    cases k with
    | shift x => simp [Call.run, shift, (fix x hk c.bits).1]
    | unshift x => simp [Call.run, unshift, (fix x hk c.bits).2]

/-- **C01.** Such names and values are not held by any permission, the zero permission holds nothing
at all, and a permission without rights holds `none`, by whatever name. -/
theorem C01_unknown_not_held (S : Shifty 16) (p : Permission) (a : Arg) :
    ((a = .other ∨ ∃ s, a = .str s ∧ Str.lower s ≠ b!"none" ∧ ∀ q : Priv, ¬ q.NamedBy (Str.lower s)) →
      positive S p a = false) ∧
    positive S none a = false ∧
    ((a = .int 0 ∨ a = .right NoAccess ∨ ∃ s, a = .str s ∧ Str.lower s = b!"none") →
      ∀ b, positive S (make S b []) a = true) := by
  refine ⟨?_, rfl, ?_⟩
  · rintro (rfl | ⟨s, rfl, h1, h2⟩)
    · cases p <;> rfl
    · cases p with
      | none => rfl
      | some c => simp [positive, none_of s h1 h2]
  · rintro (rfl | rfl | ⟨s, rfl, h⟩) b
    · cases b <;> rfl
    · cases b <;> rfl
    · have : rightsNames b!"none" = some NoAccess := by decide
      simp only [positive, make, h, this]
      cases b <;> rfl

example : (∀ q : Priv, ¬ q.NamedBy (Str.lower b!"fly")) ∧ Str.lower b!"None" = b!"none" := by
  refine ⟨fun q => ?_, by decide⟩
  cases q <;> decide

example : InRange (.int 895) ∧ Denotes .write (.str b!"WRITE") ∧ Mentions .write (.int 895) ∧
    ¬ Mentions .proxy (.str b!"All") := by
  simp only [InRange, Denotes, Mentions]
  exact ⟨fun i h => by cases h; decide, by decide, by decide, by decide⟩

example : positive (.anyRef 16) ([Call.unshift [.str b!"Write"]].foldl (Call.run (.anyRef 16))
    (make (.anyRef 16) true [.str b!"all"])) (.right ReadAccess) = true := by decide

/-- The permission holds nothing but the ten defined rights. -/
def WithinTen : Permission → Prop
  | none => True
  | some c => c.bits.toNat < 1024

/-- The rights a permission grants, through `Positive`. -/
def grants (S : Shifty 16) (p : Permission) (q : Priv) : Bool := positive S p (.right (const q))

theorem grants_cell (S : Shifty 16) (c : Cell) : grants S (some c) = heldOf c.bits := by
  funext q
  exact positive_denotes S c q (.right (const q)) rfl

theorem or_lt {a b : BitVec 16} (ha : a.toNat < 1024) (hb : b.toNat < 1024) :
    (a ||| b).toNat < 1024 := by
  rw [BitVec.toNat_or]; exact Nat.or_lt_two_pow (n := 10) ha hb

private theorem clear_lt {a b : BitVec 16} (ha : a.toNat < 1024) :
    (a &&& ~~~ b).toNat < 1024 := by
  rw [BitVec.toNat_and]; exact Nat.lt_of_le_of_lt Nat.and_le_left ha

/-- Arguments over the ten rights: names, sums of documented values. -/
def ArgTen : Arg → Prop
  | .int i => 0 ≤ i ∧ i < 1024
  | .right r => r.toNat < 1024
  | _ => True

/-- Permissions made and changed with the ten defined rights hold only these; so
C02, C03 and C05 speak about all of them. -/
theorem C02_reachable (S : Shifty 16) (allow : Bool) (init : List Arg) (h : List Call)
    (hr : ∀ k ∈ Call.shift init :: h, ∀ a ∈ k.args, ArgTen a) :
    WithinTen (h.foldl (Call.run S) (make S allow init)) := by
  have hm : make S allow init = (Call.shift init).run S (some ⟨allow, 0#16⟩) := by
    cases allow <;> rfl
  rw [hm, ← List.foldl_cons, runs_cell]
  have hops : ∀ o ∈ (Call.shift init :: h).flatMap Call.ops, ArgTen o.arg := by
    intro o ho
    obtain ⟨k, hk, ho⟩ := List.mem_flatMap.1 ho
    have := hr k hk
    cases k <;> simp only [Call.ops, List.mem_map] at ho <;> obtain ⟨a, ha, rfl⟩ := ho <;>
      exact this a ha
  revert hops
  generalize (Call.shift init :: h).flatMap Call.ops = ops
  have : (0#16 : BitVec 16).toNat < 1024 := by decide
  revert this
  show _ → _ → (List.foldl (step S) 0#16 ops).toNat < 1024
  generalize (0#16 : BitVec 16) = v
  induction ops generalizing v with
  | nil => intro hv _; exact hv
  | cons o t ih =>
    intro hv ho
    refine ih _ ?_ (fun o' h' => ho o' (by simp [h']))
    have ho := ho o (by simp)
    obtain ⟨on, a⟩ := o
    have name_lt : ∀ t r, rightsNames t = some r → r.toNat < 1024 :=
      fun t r h => table_hi _ (rightsNames_eq_some h)
    cases a with
    | int i =>
      have hf : Shifty.Fits 16 i := ⟨ho.1, by have := ho.2; simp only [ArgTen] at ho; omega⟩
      have hi : (BitVec.ofInt 16 i).toNat < 1024 := by
        obtain ⟨n, rfl⟩ := Int.eq_ofNat_of_zero_le ho.1
        simp only [ArgTen] at ho
        rw [BitVec.ofInt_natCast, BitVec.toNat_ofNat]
        omega
      cases on <;> simp only [step, shift1, unshift1, Shifty.shiftInt, Shifty.unshiftInt, hf, if_true,
        Shifty.shift, Shifty.unshift]
      · exact clear_lt hv
      · exact or_lt hv hi
    | right r =>
      cases on <;> simp only [step, shift1, unshift1, Shifty.shift, Shifty.unshift]
      · exact clear_lt hv
      · exact or_lt hv ho
    | str s =>
      cases on <;> simp only [step, shift1, unshift1]
      · cases hn : rightsNames (Str.lower s) with
        | none => exact hv
        | some r => exact clear_lt hv
      · cases hn : rightsNames (Str.lower s) with
        | none => exact hv
        | some r => exact or_lt hv (name_lt _ _ hn)
    | other => cases on <;> exact hv

/-- **C02.** A valid permission over the ten rights prints exactly the rights it
grants; see `Spec.permText` for the wording. -/
theorem C02_text (S : Shifty 16) (p : Permission) (hv : valid p = true) (hp : WithinTen p) :
    ∃ allow, stored p = some allow ∧
      disposition p = (if allow then b!"allow" else b!"deny") ∧
      string S p = permText allow (grants S p) := by
  cases p with
  | none => simp [valid] at hv
  | some c =>
    refine ⟨c.disp, rfl, rfl, ?_⟩
    rw [string_eq, wordText_eq _ hp, grants_cell]

/-- **C02.** The text determines the permission. -/
theorem C02_text_injective (S : Shifty 16) (p q : Permission) (hp : valid p = true)
    (hq : valid q = true) (hp' : WithinTen p) (hq' : WithinTen q) :
    string S p = string S q ↔
      stored p = stored q ∧ ∀ r, grants S p r = grants S q r := by
  cases p with
  | none => simp [valid] at hp
  | some c =>
  cases q with
  | none => simp [valid] at hq
  | some d =>
  have t1 := tokens_table _ hp' c.disp
  have t2 := tokens_table _ hq' d.disp
  rw [← ofNat_of_lt] at t1 t2
  constructor
  · intro h
    rw [string_eq, string_eq, wordText_eq _ hp', wordText_eq _ hq'] at h
    rw [h] at t1
    have e := t1.symm.trans t2
    simp only [Prod.mk.injEq, Option.some.injEq] at e
    have u1 := union_table _ hp'
    have u2 := union_table _ hq'
    rw [← ofNat_of_lt] at u1 u2
    have hb : c.bits = d.bits := by rw [← u1, ← u2, e.2]
    refine ⟨by simp [stored, e.1], fun r => by rw [grants_cell, grants_cell, hb]⟩
  · rintro ⟨h1, h2⟩
    rw [string_eq, string_eq, wordText_eq _ hp', wordText_eq _ hq']
    have h1 : c.disp = d.disp := Option.some.inj h1
    rw [h1]
    have : grants S (some c) = grants S (some d) := funext h2
    rw [grants_cell, grants_cell] at this
    rw [this]

example : WithinTen (Allow (.anyRef 16) [.str b!"all", .right ProxyAccess]) ∧
    string (.anyRef 16) (Allow (.anyRef 16) [.str b!"all", .right ProxyAccess]) =
      b!"allow(all,proxy)" ∧
    string (.anyRef 16) (Deny (.anyRef 16) [.str b!"Read", .right SearchAccess]) =
      b!"deny(read,search)" := by
  simp only [WithinTen, Allow]; decide +kernel

/-- The restriction to the ten rights is needed: a bit outside prints as nothing. -/
example : string (.anyRef 16) (Allow (.anyRef 16) [.int 1024]) = b!"allow()" := by decide +kernel

/-- **C03.** Reading the parts of a printed permission back, with the names in any
letter case, gives a permission with the same disposition and the same rights. -/
theorem C03_round_trip (S : Shifty 16) (p : Permission) (hv : valid p = true)
    (hp : WithinTen p) (names : List Str)
    (hn : names.map Str.lower = (permTokens (string S p)).2) :
    ∃ c, unpackage S ⟨(permTokens (string S p)).1, names⟩ = .ok c ∧
      stored (some c) = stored p ∧ ∀ r, grants S (some c) r = grants S p r := by
  cases p with
  | none => simp [valid] at hv
  | some c =>
    have t1 := tokens_table _ hp c.disp
    rw [← ofNat_of_lt, ← wordText_eq _ hp, ← string_eq S] at t1
    rw [t1] at hn ⊢
    have u := union_table _ hp
    rw [← ofNat_of_lt] at u
    refine ⟨c, ?_, rfl, fun _ => rfl⟩
    rw [unpackage_eq]
    simp only at hn
    rw [hn, u]

/-- The hypothesis of C03 is met by the printed names themselves. -/
theorem C03_round_trip_exact (S : Shifty 16) (p : Permission) (hv : valid p = true)
    (hp : WithinTen p) :
    ∃ c, unpackage S ⟨(permTokens (string S p)).1, (permTokens (string S p)).2⟩ = .ok c ∧
      stored (some c) = stored p ∧ ∀ r, grants S (some c) r = grants S p r := by
  refine C03_round_trip S p hv hp _ ?_
  cases p with
  | none => simp [valid] at hv
  | some c =>
    have t1 := tokens_table _ hp c.disp
    rw [← ofNat_of_lt, ← wordText_eq _ hp, ← string_eq S] at t1
    rw [t1]
    have := lower_table _ hp
    rwa [← ofNat_of_lt] at this

example : ([b!"READ", b!"Search"] : List Str).map Str.lower =
    (permTokens (string (.anyRef 16) (Deny (.anyRef 16) [.int 17]))).2 := by decide +kernel

/-- **C04.** The reader fails exactly when the allow flag is absent.  Otherwise the
permission has the disposition of the flag, and grants exactly the rights named in
the list (in any letter case; words that name nothing grant nothing). -/
theorem C04_reader (S : Shifty 16) (t : Tokens) :
    (t.allow = none → unpackage S t = .error ()) ∧
    ∀ a, t.allow = some a → ∃ c, unpackage S t = .ok c ∧
      stored (some c) = some a ∧
      ∀ q : Priv, grants S (some c) q = true ↔ ∃ w ∈ t.rights, q.NamedBy (Str.lower w) := by
  rw [unpackage_eq]
  refine ⟨fun h => by rw [h], fun a h => ?_⟩
  rw [h]
  refine ⟨_, rfl, rfl, fun q => ?_⟩
  rw [grants_cell, heldOf, union_bit]
  constructor
  · rintro ⟨w, hw, h⟩
    obtain ⟨u, hu, rfl⟩ := List.mem_map.1 hw
    exact ⟨u, hu, h⟩
  · rintro ⟨u, hu, h⟩
    exact ⟨_, List.mem_map_of_mem hu, h⟩

example : ∃ c, unpackage (.anyRef 16) ⟨some false, [b!"Read", b!"bogus"]⟩ = .ok c ∧
    string (.anyRef 16) (some c) = b!"deny(read)" := ⟨⟨false, 1#16⟩, rfl, by decide +kernel⟩

/-- **C05.** `Len` counts the granted rights. -/
theorem C05_len (S : Shifty 16) (p : Permission) (hp : WithinTen p) :
    len S p = (Priv.all.filter (grants S p)).length := by
  cases p with
  | none => rfl
  | some c =>
    have : len S (some c) = ((List.range 16).filter fun i => c.bits.getLsbD i).length := by
      simp only [len]
      congr 1
      apply List.filter_congr
      intro i hi
      exact S.positive_bit _ _ (by simpa using hi)
    rw [this, grants_cell]
    have := len_table _ hp
    rwa [← ofNat_of_lt] at this

/-- **C05.** Exactly the permissions without storage are invalid; every permission
made by `Allow`, `Deny` or the reader is valid, and stays so. -/
theorem C05_valid (S : Shifty 16) (p : Permission) :
    (valid p = false ↔ stored p = none) ∧ (isZero p = true ↔ stored p = none) ∧
    (∀ (allow : Bool) (x : List Arg) (h : List Call),
      valid (h.foldl (Call.run S) (make S allow x)) = true) ∧
    (∀ t c, unpackage S t = .ok c → valid (some c) = true) := by
  refine ⟨by cases p <;> simp [valid, stored], by cases p <;> simp [isZero, stored], ?_, fun _ _ _ => rfl⟩
  intro allow x h
  cases allow <;> simp [make, Allow, Deny, runs_cell, valid]

example : len (.anyRef 16) (Allow (.anyRef 16) [.right ReadAccess, .str b!"delete"]) = 2 := by
  decide

end Verif.Rights
