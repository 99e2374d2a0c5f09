import Verif.Props.TargetBack

/-!
# C98: values that were read from calm texts are printed and read again without change
-/

namespace Verif.Back
open Verif Verif.Spec Verif.Bind Verif.Rules Verif.Attr Verif.Misc Verif.DNList

theorem ascii_condense {s : Str} (h : Str.IsAscii s) : Str.IsAscii (condenseWHSP s) :=
  trim_ascii (condenseLoop_ascii (nl_ascii (trim_ascii h)) false)

theorem ends_condense {s : Str} (h : Str.IsAscii s) (hne : condenseWHSP s ≠ []) :
    Solid ((condenseWHSP s).head hne) ∧ Solid ((condenseWHSP s).getLast hne) :=
  trim_ends (condenseLoop_ascii (nl_ascii (trim_ascii h)) false) hne

theorem mem_loop {s : Str} {b : Bool} {c : Byte} (h : Str.IsAscii s) (hc : c ∈ condenseLoop b s) : c ∈ s ∨ c = 32 := by
  induction s generalizing b with
  | nil => simp [condenseLoop] at hc
  | cons a s ih =>
    have ha := h a (by simp)
    have hs : Str.IsAscii s := fun c hc => h c (by simp [hc])
    rw [condenseLoop] at hc
    split at hc
    · split at hc
      · exact (ih hs hc).imp_left (by simp +contextual)
      · rcases List.mem_cons.1 hc with rfl | hc
        · exact Or.inr rfl
        · exact (ih hs hc).imp_left (by simp +contextual)
    · rw [encodeByte_plain ha] at hc
      rcases List.mem_cons.1 hc with rfl | hc
      · exact Or.inl (by simp)
      · exact (ih hs hc).imp_left (by simp +contextual)

theorem mem_trim {s : Str} {c : Byte} (h : c ∈ Str.trimSpace s) : c ∈ s := by
  obtain ⟨l, r, -, -, e⟩ := trimSpace_split s
  rw [e]; simp [h]

theorem mem_condense {s : Str} {c : Byte} (h : Str.IsAscii s) (hc : c ∈ condenseWHSP s) : c ∈ s ∨ c = 32 := by
  rcases mem_loop (nl_ascii (trim_ascii h)) (mem_trim hc) with hc | hc
  · obtain ⟨d, hd, rfl⟩ := List.mem_map.1 hc
    split
    · exact Or.inr rfl
    · exact Or.inl (mem_trim hd)
  · exact Or.inr hc

/-- ASCII without quotation marks, no white space at the ends or doubled. -/
structure Trim (t : Str) : Prop where
  ascii : Str.IsAscii t
  quotes : ∀ c ∈ t, isQuote c = false
  tight : Tight false t
  ends : ∀ hne : t ≠ [], Solid (t.head hne) ∧ Solid (t.getLast hne)

theorem Trim.condense {t : Str} (h : Trim t) : condenseWHSP t = t := Filter.condense_id h.ascii h.tight h.ends

theorem unquote_none {t : Str} (h : ∀ c ∈ t, isQuote c = false) : unquote t = t := by
  have : Unquotes t t := by
    by_cases hl : t.length ≤ 2
    · exact Or.inl ⟨hl, rfl⟩
    · refine Or.inr ⟨by omega, [], [], by simp, .absent, .absent, ?_, ?_⟩
      · intro _ c hc hq
        rw [quote?_iff, h c (List.mem_of_mem_head? hc)] at hq; cases hq
      · intro _ c hc hq
        rw [quote?_iff, h c (List.mem_of_getLast? hc)] at hq; cases hq
  exact (unquotes_iff _ _).1 this

theorem Trim.inside {t : Str} (h : Trim t) : Inside t t := by
  rw [inside_iff, h.condense, unquote_none h.quotes]


/-- The text is ASCII without quotation marks. -/
def Clear (v : Str) : Prop := Str.IsAscii v ∧ (34 : Byte) ∉ v ∧ (39 : Byte) ∉ v ∧ (96 : Byte) ∉ v

theorem Clear.trim {v : Str} (h : Clear v) : Trim (condenseWHSP v) where
  ascii := ascii_condense h.1
  quotes := by
    intro c hc
    rcases mem_condense h.1 hc with hc | rfl
    · cases hq : isQuote c with
      | false => rfl
      | true =>
        rcases (isQuote_iff c).1 hq with rfl | rfl | rfl
        · exact absurd hc h.2.1
        · exact absurd hc h.2.2.1
        · exact absurd hc h.2.2.2
    · decide
  tight := condense_tight v
  ends := fun hne => ends_condense h.1 hne

theorem Clear.inside {v t : Str} (h : Clear v) (ht : Inside v t) : Trim t ∧ condenseWHSP v = t := by
  rw [inside_iff, unquote_none h.trim.quotes] at ht
  exact ⟨ht ▸ h.trim, ht⟩

theorem Trim.front {s t : Str} (hs : Plain s) (hq : ∀ c ∈ s, isQuote c = false) (ht : Trim t) (hne : t ≠ []) :
    Trim (s ++ t) := by
  have hsol := solid_of_plain hs
  by_cases hs0 : s = []
  · subst hs0; simpa using ht
  refine ⟨?_, ?_, ?_, ?_⟩
  · intro c hc
    rcases List.mem_append.1 hc with hc | hc
    · exact (hsol c hc).1
    · exact ht.ascii c hc
  · intro c hc
    rcases List.mem_append.1 hc with hc | hc
    · exact hq c hc
    · exact ht.quotes c hc
  · refine Filter.tight_append (Filter.plain_tight hs) hs0 ?_
    have : (s.getLast hs0 == 32) = false := by
      have := (hsol _ (List.getLast_mem hs0)).2
      rw [beq_eq_false_iff_ne]
      intro e; rw [e] at this; revert this; decide
    rw [this]; exact ht.tight
  · intro hn
    rw [List.head_append_of_ne_nil hs0, List.getLast_append_of_ne_nil hn hne]
    exact ⟨hsol _ (List.head_mem hs0), (ht.ends hne).2⟩

theorem attr_plain {p : Str} (hp : AttrName p) (ha : Str.IsAscii p) : Plain p ∧ ∀ c ∈ p, isQuote c = false := by
  have hb : ∀ c : Byte, c < 128 → (Cased c ∨ Digit c ∨ c = 59 ∨ c = 45) → (33 ≤ c ∧ c ≤ 126) ∧ isQuote c = false := by
    decide +kernel
  rcases hp with h | rfl
  · exact ⟨fun c hc => (hb c (ha c hc) (h.2.2 c hc)).1, fun c hc => (hb c (ha c hc) (h.2.2 c hc)).2⟩
  · decide +kernel

theorem Trim.back {s t : Str} (h : Trim (s ++ t)) (hne : t ≠ []) (hd : Solid (t.head hne)) : Trim t := by
  refine ⟨fun c hc => h.ascii c (by simp [hc]), fun c hc => h.quotes c (by simp [hc]), tight_append_right h.tight, ?_⟩
  intro hn
  refine ⟨hd, ?_⟩
  have := (h.ends (by simp [hne])).2
  rwa [List.getLast_append_of_ne_nil _ hne] at this

theorem name_plain (b : BTy) : Plain b.name ∧ (∀ c ∈ b.name, isQuote c = false) ∧ b.name ≠ [] := by
  cases b <;> decide +kernel

theorem plain_trim {s : Str} (h : Plain s) (hq : ∀ c ∈ s, isQuote c = false) : Trim s :=
  ⟨fun c hc => (solid_of_plain h c hc).1, hq, Filter.plain_tight h, fun hne =>
    ⟨solid_of_plain h _ (List.head_mem hne), solid_of_plain h _ (List.getLast_mem hne)⟩⟩

/-- What is read as a pair, and ends with something else than a number sign. -/
theorem pair_sound {key : BindKeyword} {t : Str} {A : ABTV} (h : Uri.PairText key t A) (ht : Trim t)
    (he : ∀ y, t ≠ y ++ b!"#") : ∃ u, SoundPair key A u ∧ Trim u ∧ u ≠ [] := by
  cases h with
  | @type p q b hp hq =>
    obtain ⟨h1, h2⟩ := attr_plain hp fun c hc => ht.ascii c (by simp [hc])
    obtain ⟨h3, h4, h5⟩ := name_plain b
    refine ⟨_, .type b hp, ?_, by simp⟩
    have e1 : Plain b!"#" := by decide
    have e2 : ∀ c ∈ b!"#", isQuote c = false := by decide +kernel
    refine Trim.front ?_ ?_ (plain_trim h3 h4) h5
    · exact fun c hc => (List.mem_append.1 hc).elim (h1 c) (e1 c)
    · exact fun c hc => (List.mem_append.1 hc).elim (h2 c) (e2 c)
  | value hp hq hne => exact ⟨_, .value hp hq hne, ht, by simp⟩
  | empty hp => exact absurd rfl (he _)

theorem pair_head {key : BindKeyword} {t : Str} {A : ABTV} (h : Uri.PairText key t A) (ha : Str.IsAscii t) :
    ∃ hne : t ≠ [], Solid (t.head hne) := by
  have : ∀ p q : Str, AttrName p → Str.IsAscii (p ++ q) → ∃ hne : p ++ q ≠ [], Solid ((p ++ q).head hne) := by
    intro p q hp ha
    have h1 := (attr_plain hp fun c hc => ha c (by simp [hc])).1
    have hn := Uri.attrName_ne_nil hp
    refine ⟨by simp [hn], ?_⟩
    rw [List.head_append_of_ne_nil hn]
    exact solid_of_plain h1 _ (List.head_mem hn)
  cases h with
  | type hp | value hp => 
    simp only [List.append_assoc] at ha ⊢
    exact this _ _ hp ha
  | empty hp => exact this _ _ hp ha

theorem level_plain (f : Fin 10 → Bool) : Plain (levelList f) ∧ ∀ c ∈ levelList f, isQuote c = false := by
  have hb : ∀ n : Fin 10, ∀ c ∈ numeral n, (33 ≤ c ∧ c ≤ 126) ∧ isQuote c = false := by decide +kernel
  have : ∀ c ∈ levelList f, (33 ≤ c ∧ c ≤ 126) ∧ isQuote c = false := by
    intro c hc
    rcases Uri.join_mem hc with hc | ⟨x, hx, hc⟩
    · simp only [List.mem_cons, List.not_mem_nil, or_false] at hc; subst hc; decide
    · obtain ⟨n, -, rfl⟩ := List.mem_map.1 hx
      exact hb n c hc
  exact ⟨fun c hc => (this c hc).1, fun c hc => (this c hc).2⟩

theorem firsts_dist {α : Type} {same : α → α → Bool} (tr : ∀ a b c, same a b = true → same b c = true → same a c = true)
    (l : List α) : Distinct same (firsts same l) := by
  rw [← foldl_addNew same tr l]
  exact distinct_foldl l (distinct_nil _)

theorem firsts_sub {α : Type} {same : α → α → Bool} {l : List α} {a : α} (h : a ∈ firsts same l) : a ∈ l := by
  induction l with
  | nil => cases h
  | cons b l ih =>
    rcases List.mem_cons.1 h with rfl | h
    · simp
    · exact List.mem_cons_of_mem _ (ih (List.mem_filter.1 h).1)

theorem firsts_nodup (l : List Str) : (firsts (fun a b => a == b) l).Nodup := by
  induction l with
  | nil => exact List.nodup_nil
  | cons a l ih => exact List.nodup_cons.2 ⟨by simp, ih.filter _⟩

theorem mem_of_piece {d : Byte} {s p : Str} (h : p ∈ Str.split1 d s) {c : Byte} (hc : c ∈ p) : c ∈ s := by
  have : ∀ (l : List Str), p ∈ l → c ∈ Str.join [d] l := by
    intro l
    induction l with
    | nil => intro h; cases h
    | cons a l ih =>
      intro h
      cases l with
      | nil => simp only [List.mem_singleton] at h; subst h; exact hc
      | cons b l =>
        rw [Str.join]
        rcases List.mem_cons.1 h with rfl | h
        · simp [hc]
        · exact List.mem_append_right _ (ih h)
  have := this _ h
  rwa [Str.join_split1] at this

theorem name_settled {c u w : Str} (hc : Trim c) (h2 : ∀ y, c ≠ scheme ++ (scheme ++ y)) (hu : Bare c u) (hg : GoodName u)
    (hw : Bare u w) : w = u ∧ (∀ y, w ≠ scheme ++ y) ∧ Condenses (scheme ++ w) (scheme ++ w) := by
  have hne : u ≠ [] := by rintro rfl; exact absurd hg.1 (by decide)
  rcases hu with rfl | ⟨rfl, hs⟩
  · rcases hw with rfl | ⟨rfl, hs⟩
    · exact absurd rfl (h2 _)
    · exact ⟨rfl, hs, (condenses_iff _ _).2 hc.condense⟩
  · rcases hw with rfl | ⟨rfl, hs⟩
    · exact absurd rfl (hs _)
    · exact ⟨rfl, hs, (condenses_iff _ _).2 (Trim.front scheme_plain (by decide +kernel) hc hne).condense⟩

theorem calm_sound {F : EqualFold} {k : BKw} {vs : List Str} {x : BExpr} (hv : ∀ v ∈ vs, Calm k v)
    (h : BindValue F k vs x) : Sound F k x := by
  have hc : ∀ v ∈ vs, Clear v := fun v hm => ⟨(hv v hm).ascii, (hv v hm).quotes⟩
  cases h with
  | @names k v t vs hk hi h3 entry he =>
    refine .names hk (by simp [firsts]) ?_ (firsts_dist (fun a b c => F.trans a.string b.string c.string) _)
    intro e hm
    obtain ⟨y, hy, rfl⟩ := List.mem_map.1 (firsts_sub hm)
    rcases he y hy with ⟨hu, -⟩ | ⟨-, c, u, w, hcc, hcu, hg, hq, hw, e⟩
    · exact absurd hu.2 (hv y hy).mark
    · have e' := (condenses_iff _ _).1 hcc
      obtain ⟨rfl, h1, h2⟩ := name_settled (e' ▸ (hc y hy).trim) (fun z e => (hv y hy).names hk z (e ▸ hcc)) hcu hg hw
      rw [e]
      exact .name hg h1 hq h2
  | @uri k v t u hk hi h =>
    obtain ⟨-, e⟩ := (hc v (by simp)).inside hi
    obtain ⟨n, parts, e', -⟩ := h
    exact absurd ((condenses_iff _ _).2 (e.trans e')) (((hv v (by simp)).attr hk).1 _)
  | @inherit k v t i hk hi hp h =>
    obtain ⟨ht, e⟩ := (hc v (by simp)).inside hi
    obtain ⟨pre, lv, rest, w, A, rfl, -, -, ⟨n, hn⟩, hA, rfl, hb, hw⟩ := h
    obtain ⟨hne, hh⟩ := pair_head hA fun c hc => ht.ascii c (by simp [hc])
    obtain ⟨u, h1, h2, h3⟩ := pair_sound hA (Trim.back ht hne hh) (by
      rintro y rfl
      exact ((hv v (by simp)).attr hk).2 (pre ++ lv ++ b!"]." ++ y) ((condenses_iff _ _).2 (by simpa using e)))
    refine .inherit hk h1 ⟨n, (hb n).2 hn⟩ hw (Trim.inside ?_)
    obtain ⟨l1, l2⟩ := level_plain fun n => w.getLsbD (n.1 + 1)
    have e1 : Plain b!"parent[" ∧ Plain b!"]." := by decide
    have e2 : (∀ c ∈ b!"parent[", isQuote c = false) ∧ ∀ c ∈ b!"].", isQuote c = false := by decide +kernel
    refine Trim.front ?_ ?_ h2 h3
    · exact fun c hc => (List.mem_append.1 hc).elim (fun hc => (List.mem_append.1 hc).elim (e1.1 c) (l1 c)) (e1.2 c)
    · exact fun c hc => (List.mem_append.1 hc).elim (fun hc => (List.mem_append.1 hc).elim (e2.1 c) (l2 c)) (e2.2 c)
  | @pair k v t A hk hi hs hp h =>
    obtain ⟨ht, e⟩ := (hc v (by simp)).inside hi
    obtain ⟨u, h1, h2, h3⟩ := pair_sound h ht (by
      rintro y rfl
      exact ((hv v (by simp)).attr hk).2 y ((condenses_iff _ _).2 e))
    exact .pair hk h1 h2.inside
  | address hi hd h => exact .address (Str.split1_ne_nil _ _) hd h
  | @host v t hi h2 h15 h63 h =>
    obtain ⟨ht, e⟩ := (hc v (by simp)).inside hi
    have hb : ∀ c : Byte, c < 128 → LatinLetter c → AsciiLetter c := by decide +kernel
    refine .host h2 h15 (by rw [Str.join_split1]; exact h63) fun p hp => ?_
    obtain ⟨a1, a2, a3, a4⟩ := h p hp
    refine ⟨a1, a2, fun c hcp => (a3 c hcp).imp_left (hb c ?_), a4⟩
    exact ht.ascii c (mem_of_piece hp hcp)
  | noHost => exact .noHost
  | @days v t w hi h hw h0 =>
    refine .days h0 ?_
    rintro rfl
    obtain ⟨e, l, hl⟩ : ∃ e l, Str.split1 44 (Str.dropSpaces t) = e :: l := by
      cases hs : Str.split1 44 (Str.dropSpaces t) with
      | nil => exact absurd hs (Str.split1_ne_nil _ _)
      | cons e l => exact ⟨e, l, rfl⟩
    obtain ⟨d, hd⟩ := h e (by rw [hl]; simp)
    have := (hw d).2 ⟨e, by rw [hl]; simp, hd⟩
    simp at this
  | time hc' hi hn => exact .time hc' hn
  | method => exact .method _
  | noFactor => exact .factor none
  | factor => exact .factor _

/-- **C98** for bind rules and calm texts: a value that was read from them is read again from its own
texts, as itself and as nothing else. -/
theorem C98_calm (F : EqualFold) (env : Env) (hP : Proper env F) (P : Printing) (hN : P.names.Perm Sec.authNames)
    (r : BRule) (k : BKw) (style : Int) (vs : List Str) (hr : RawBind r k style vs) (hv : ∀ v ∈ vs, Calm k v)
    (x : BExpr) (hx : ValueReadB env r x) (q : BRule) (style' : Int) (hq : RawBind q k style' (x.texts P)) (y : BExpr) :
    ValueReadB env q y ↔ y = x :=
  C98_bind_partial F env hP P hN k x (calm_sound hv ((C84_value F env hP r k style vs hr x).1 hx)) q style' hq y

theorem not_condenses {v p : Str} (h : (condenseWHSP v).take p.length ≠ p) (y : Str) : ¬ Condenses v (p ++ y) := by
  rw [condenses_iff]
  intro e
  apply h
  rw [e, List.take_left']; rfl

example : Calm .userdn b!" ldap:///cn=x ,  o=y " :=
  ⟨by decide +kernel, by decide +kernel, by decide +kernel,
    fun _ y => by rw [← List.append_assoc]; exact not_condenses (by decide +kernel) y, fun h => by cases h⟩
example : Calm .userattr b!"parent[0, 1].Manager#USERDN" :=
  ⟨by decide +kernel, by decide +kernel, by decide +kernel, fun h => (by cases h),
    fun _ => ⟨fun y => not_condenses (by decide +kernel) y, fun y hc => by
      have := congrArg List.getLast? ((condenses_iff _ _).1 hc)
      rw [List.getLast?_append, show List.getLast? (condenseWHSP b!"parent[0, 1].Manager#USERDN") = some 78 by decide +kernel] at this
      cases this⟩⟩
example : BindValue .ref .ip [b!" 10.0.*,::1 "] (.ip (some [b!"10.0.*", b!"::1"])) :=
  .address (t := b!"10.0.*,::1") ((inside_iff _ _).2 (by decide +kernel)) (by decide +kernel) (by decide +kernel)

theorem calm_soundT {E : EqualFold} {d : Oid.DotReader} (hd : ∀ v t, d.read v = some t → d.read t = some t) {k : TKw}
    {vs : List Str} {x : TExpr} (hv : ∀ v ∈ vs, CalmT k v) (h : TargetValue E d k vs x) : SoundT E d k x := by
  have hc : ∀ v ∈ vs, Clear v := fun v hm => ⟨(hv v hm).ascii, (hv v hm).quotes⟩
  cases h with
  | scope => exact .scope _
  | @filter v t h h' => exact .filter h' ((hc v (by simp)).inside h).1.inside
  | @attrs v t vs h h' => exact .attrs _ h' ((hc v (by simp)).inside h).1.inside
  | @oids k vs hk h =>
    refine .oids hk ?_ ?_ ?_
    · intro e
      cases hl : upToGap (vs.map d.read) with
      | nil => exact h hl
      | cons a l => rw [hl, firsts] at e; cases e
    · exact firsts_nodup _
    · intro t ht
      have : ∀ (l : List (Option Str)) (t : Str), t ∈ upToGap l → some t ∈ l := by
        intro l
        induction l with
        | nil => intro t h; cases h
        | cons a l ih =>
          intro t h
          cases a with
          | none => cases h
          | some a =>
            rcases List.mem_cons.1 h with rfl | h
            · simp
            · exact List.mem_cons_of_mem _ (ih t h)
      obtain ⟨v, -, hv⟩ := List.mem_map.1 (this _ _ (firsts_sub ht))
      exact hd v t hv
  | @names k vs hk h name h' =>
    have hg : ∀ v ∈ vs, GoodName (name v) ∧ (∀ y, name v ≠ scheme ++ y) ∧ Condenses (scheme ++ name v) (scheme ++ name v) := by
      intro v hm
      obtain ⟨c, u, hcc, hcu, hg, hw⟩ := h' v hm
      have e' := (condenses_iff _ _).1 hcc
      obtain ⟨e, h1, h2⟩ := name_settled (e' ▸ (hc v hm).trim) (fun z e => (hv v hm).names hk z (e ▸ hcc)) hcu hg hw
      exact ⟨e ▸ hg, h1, h2⟩
    refine .names hk ?_ ?_ (firsts_dist (fun a b c => E.trans (scheme ++ a) (scheme ++ b) (scheme ++ c)) _)
    · cases vs with
      | nil => exact absurd rfl h
      | cons => simp [firsts]
    · intro n hn
      obtain ⟨v, hm, rfl⟩ := List.mem_map.1 (firsts_sub hn)
      exact hg v hm
  | @ops v => exact absurd rfl (hv v (by simp)).noOps

/-- **C98** for target rules and calm texts, if object identifiers are read as they were written: a
value that was read from the texts is read again from its own texts, as itself and as nothing else. -/
theorem C98_target_calm (E : EqualFold) (d : Oid.DotReader) (hd : ∀ v t, d.read v = some t → d.read t = some t)
    (r : TRule) (k : TKw) (style : Int) (vs : List Str) (hr : RawRule r k style vs) (hv : ∀ v ∈ vs, CalmT k v)
    (x : TExpr) (hx : ValueRead E d r x) (q : TRule) (style' : Int) (hq : RawRule q k style' x.texts) (y : TExpr) :
    ValueRead E d q y ↔ y = x :=
  C98_target_partial E d k x (calm_soundT hd hv ((C80_value E d r k style vs hr x).1 hx)) q style' hq y

example : CalmT .targetfilter b!" (cn=a  b)" :=
  ⟨by decide +kernel, by decide +kernel, fun h => (by cases h), by decide⟩
example : CalmT .target b!"ldap:///ou=x" :=
  ⟨by decide +kernel, by decide +kernel, fun _ y => by rw [← List.append_assoc]; exact not_condenses (by decide +kernel) y,
    by decide⟩
example : ∀ v t, Oid.plainReader.read v = some t → Oid.plainReader.read t = some t := by
  intro v t h
  unfold Oid.plainReader at h ⊢
  simp only at h ⊢
  split at h
  · cases h; rename_i hv; exact if_pos hv
  · cases h

end Verif.Back
