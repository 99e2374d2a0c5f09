import Verif.Model.Scheme
import Verif.Lemmas.Attr
import Verif.Props.DN

/-!
# C111: names and addresses are local

The comment at /repo/dn.go:11-22 says that the scheme of a name should never be another than
the local one, and calls `LocalScheme` a constant.
-/

namespace Verif.Scheme
open Verif Verif.DN Verif.Uri Verif.Attr Verif.Filter

/-- The text begins with the scheme of the local host. -/
def Local (t : Str) : Prop := ∃ w, t = b!"ldap:///" ++ w

/-- Every variable of a name or address that has a text has a local one. -/
def AllLocal (m : State) : Prop := ∀ v,
  (Local (m.bindText v) ∧ Local (m.targetText v) ∨
    m.bindText v = b!"<invalid_bind_distinguished_name>" ∧
    m.targetText v = b!"<invalid_target_distinguished_name>") ∧
  (Local (m.uriText v) ∨ m.uriText v = b!"<invalid_ldap_uri>" ∨ m.uriText v = [])

/-- **C111**, the full claim: whatever a program does, its names and addresses are local. -/
def ClaimLocal : Prop := ∀ (F : EqualFold) (p : List Step), AllLocal (start.run F.eq p)

/-- **C111**, the full claim: what a program does to the variable is forgotten when it has the
value of the start again. -/
def ClaimForgotten : Prop := ∀ (F : EqualFold) (p : List Step) (v : Nat),
  (start.run F.eq (p ++ [.assign b!"ldap:///"])).bindText v =
    (start.run F.eq (p.filter fun s => match s with | .assign _ => false | _ => true)).bindText v

theorem text_cases (n : Option DName) :
    (∀ s bad, stringWith s bad n = bad) ∨ ∃ t, ∀ s bad, stringWith s bad n = s ++ t := by
  match n with
  | none => exact .inl fun _ _ => rfl
  | some ⟨_, none⟩ => exact .inl fun _ _ => rfl
  | some ⟨_, some t⟩ => exact .inr ⟨t, fun _ _ => rfl⟩

theorem uri_cases (u : Uri) :
    (∀ s, uriString s u = b!"<invalid_ldap_uri>") ∨ ∃ t, ∀ s, uriString s u = s ++ t := by
  by_cases hv : u.valid = true
  · right
    have hd : ∃ t, ∀ s bad, stringWith s bad u.dn = s ++ t := by
      unfold Uri.valid DN.isZero at hv
      match hu : u.dn, hv with
      | none, hv => cases hv
      | some ⟨k, none⟩, hv => cases hv
      | some ⟨k, some t⟩, _ => exact ⟨t, fun _ _ => rfl⟩
    obtain ⟨t, ht⟩ := hd
    simp only [uriString, hv, Bool.not_true, Bool.false_eq_true, if_false, ht]
    split
    · exact ⟨_, fun s => List.append_assoc _ _ _⟩
    · split
      · exact ⟨_, fun s => List.append_assoc _ _ _⟩
      · simp only [List.append_assoc]
        exact ⟨_, fun s => rfl⟩
  · left
    intro s
    simp [uriString, hv, badURI]

/-- **C111.**  Missing: the program may assign `LocalScheme`; this says what an assignment does
after any program, to the names and addresses made before: each shows the scheme that was
assigned, before a text that depends on the program only. -/
theorem C111_assigned_partial (F : EqualFold) (m : State) (p : List Step) (v : Nat) :
    ((∃ t, ∀ s, let n := m.run F.eq (p ++ [.assign s]); n.bindText v = s ++ t ∧ n.targetText v = s ++ t) ∨
      ∀ s, let n := m.run F.eq (p ++ [.assign s])
        n.bindText v = b!"<invalid_bind_distinguished_name>" ∧
        n.targetText v = b!"<invalid_target_distinguished_name>") ∧
    ((∃ t, ∀ s, (m.run F.eq (p ++ [.assign s])).uriText v = s ++ t) ∨
      (∀ s, (m.run F.eq (p ++ [.assign s])).uriText v = b!"<invalid_ldap_uri>") ∨
      ∀ s, (m.run F.eq (p ++ [.assign s])).uriText v = []) := by
  have hrun : ∀ s, m.run F.eq (p ++ [.assign s]) = { m.run F.eq p with sch := s } := by
    intro s; simp [State.run, State.step]
  simp only [hrun]
  constructor
  · rcases text_cases ((m.run F.eq p).names v) with h | ⟨t, h⟩
    · exact .inr fun s => ⟨h _ _, h _ _⟩
    · exact .inl ⟨t, fun s => ⟨h _ _, h _ _⟩⟩
  · unfold State.uriText
    simp only
    match (m.run F.eq p).uris v with
    | none => exact .inr (.inr fun _ => rfl)
    | some u =>
      rcases uri_cases u with h | ⟨t, h⟩
      · exact .inr (.inl h)
      · exact .inl ⟨t, h⟩

theorem all_local {m : State} (h : m.sch = b!"ldap:///") : AllLocal m := by
  have := fun v => C111_assigned_partial EqualFold.ref m [] v
  intro v
  have hn : m.run EqualFold.ref.eq ([] ++ [.assign b!"ldap:///"]) = m := by
    cases m; simp only at h; subst h; rfl
  obtain ⟨h1, h2⟩ := this v
  constructor
  · rcases h1 with ⟨t, h1⟩ | h1
    · have := h1 b!"ldap:///"
      rw [hn] at this
      exact .inl ⟨⟨t, this.1⟩, ⟨t, this.2⟩⟩
    · have := h1 b!"ldap:///"
      rw [hn] at this
      exact .inr this
  · rcases h2 with ⟨t, h2⟩ | h2 | h2
    · have := h2 b!"ldap:///"
      rw [hn] at this
      exact .inl ⟨t, this⟩
    · have := h2 b!"ldap:///"
      rw [hn] at this
      exact .inr (.inl this)
    · have := h2 b!"ldap:///"
      rw [hn] at this
      exact .inr (.inr this)

theorem run_sch (eq : Str → Str → Bool) : ∀ (p : List Step) (m : State), (∀ s, .assign s ∉ p) →
    (m.run eq p).sch = m.sch
  | [], _, _ => rfl
  | st :: p, m, h => by
    have ih := run_sch eq p (m.step eq st) fun s hs => h s (.tail _ hs)
    have hst : (m.step eq st).sch = m.sch := by
      cases st with
      | assign s => exact absurd (List.mem_cons_self ..) (h s)
      | make => rfl
      | set => rfl
      | name => rfl
      | parse v x => simp only [State.step]; split <;> rfl
    exact ih.trans hst

/-- **C111.**  Missing: the program may assign `LocalScheme`; this is for programs that leave
it, which show a local text for every name and address, and for each name made from a text that
is not empty this text with the scheme in front once. -/
theorem C111_constant_partial (F : EqualFold) (p : List Step) (hp : ∀ s, .assign s ∉ p) :
    AllLocal (start.run F.eq p) ∧
    ∀ v x w kw, x ≠ [] → Spec.Bare x w →
      (start.run F.eq (p ++ [.make v x kw])).bindText v = b!"ldap:///" ++ w ∧
      (start.run F.eq (p ++ [.set v x kw])).bindText v = b!"ldap:///" ++ w := by
  have hs : (start.run F.eq p).sch = Levels.LocalScheme := run_sch F.eq p start hp
  refine ⟨all_local hs, fun v x w kw hx hw => ?_⟩
  have hc : chopDNPfx Levels.LocalScheme x = w := DN.chop_iff.2 hw
  have hl : x.length ≠ 0 := fun e => hx (List.length_eq_zero_iff.1 e)
  have hn : newDN Levels.LocalScheme x kw = ⟨kw, some w⟩ := by
    unfold newDN; rw [if_pos hl, hc]
  constructor
  · simp only [State.run, List.foldl_append, List.foldl_cons, List.foldl_nil] at hs ⊢
    simp only [State.bindText, State.step, if_true, hs, hn]
    rfl
  · simp only [State.run, List.foldl_append, List.foldl_cons, List.foldl_nil] at hs ⊢
    have hset : ∀ r, setWith Levels.LocalScheme r x kw = some ⟨kw, some w⟩ := by
      intro r
      unfold setWith
      split <;> simp only [set, if_neg hl, hn]
    simp only [State.bindText, State.step, if_true, hs, hset]
    rfl

/-- **C111.**  Missing: as above; this is for any scheme that is not empty.  A name made again
from what it prints is the same, whatever the program assigned before, and an address is read
only from a text with the scheme that was assigned last. -/
theorem C111_again_partial (F : EqualFold) (m : State) (p : List Step) (s : Str) (hs : s ≠ []) :
    let n := m.run F.eq (p ++ [.assign s])
    (∀ v kw t, n.names v = some ⟨kw, some t⟩ →
      (n.step F.eq (.make v (n.bindText v) kw)).names = n.names ∧
      (n.step F.eq (.make v (n.targetText v) kw)).names = n.names) ∧
    ∀ v x, (¬ ∃ t, x = s ++ t) → n.step F.eq (.parse v x) = n := by
  intro n
  have hsch : n.sch = s := by simp [n, State.run, State.step]
  constructor
  · intro v kw t h
    have hb : n.bindText v = s ++ t := by simp only [State.bindText, h, hsch, stringWith]
    have ht : n.targetText v = s ++ t := by simp only [State.targetText, h, hsch, stringWith]
    have hd : newDN s (s ++ t) kw = ⟨kw, some t⟩ := by
      unfold newDN chopDNPfx
      rw [if_pos (by
        intro e
        exact hs (List.append_eq_nil_iff.1 (List.length_eq_zero_iff.1 e)).1), if_pos (Str.hasPrefix_iff.2 ⟨t, rfl⟩), List.drop_left]
    have key : (n.step F.eq (.make v (s ++ t) kw)).names = n.names := by
      funext u
      simp only [State.step, hsch, hd]
      split
      · rename_i e; rw [e, h]
      · rfl
    rw [hb, ht]
    exact ⟨key, key⟩
  · intro v x hx
    have hp : Str.hasPrefix x s = false := by
      cases h : Str.hasPrefix x s with
      | false => rfl
      | true =>
        obtain ⟨t, rfl⟩ := Str.hasPrefix_iff.1 h
        exact absurd ⟨t, rfl⟩ hx
    simp only [State.step, hsch, parseLDAPURI, hp, Bool.not_false, if_true]

/-- **C111.**  Missing: as above.  While `LocalScheme` has the value of the start, the functions
here do what those of `Verif.DN` and `Verif.Uri` do, about which the other claims are. -/
theorem C111_same_partial (eq : Str → Str → Bool) (x : Str) (kw : UInt8) (n : Option DName) (u : Uri)
    (ks : List BindKeyword) :
    newDN b!"ldap:///" x kw = DN.newDN x kw ∧
    setWith b!"ldap:///" n x kw = DN.setWith n x kw ∧
    stringWith b!"ldap:///" badBDN n = BindDN.string n ∧
    stringWith b!"ldap:///" badTDN n = TargetDN.string n ∧
    parseLDAPURI eq b!"ldap:///" x ks = Uri.parseLDAPURI eq x ks ∧
    uriString b!"ldap:///" u = u.string := by
  refine ⟨rfl, ?_, ?_, ?_, ?_, ?_⟩
  · rcases n with _ | ⟨_, _ | _⟩ <;> rfl
  · rcases n with _ | ⟨_, _ | _⟩ <;> rfl
  · rcases n with _ | ⟨_, _ | _⟩ <;> rfl
  · have h : ∀ r vs, assertURIComponents eq b!"ldap:///" r vs ks = Uri.assertURIComponents eq r vs ks := by
      intro r vs
      match vs with
      | [] => rfl
      | [_] => rfl
      | [_, _] => rfl
      | [_, _, _] => rfl
      | _ :: _ :: _ :: _ :: _ => rfl
    show (if !Str.hasPrefix x Levels.LocalScheme then _ else _) = Uri.parseLDAPURI eq x ks
    rw [h]
    rfl
  · have h : stringWith b!"ldap:///" badBDN u.dn = BindDN.string u.dn := by
      rcases u.dn with _ | ⟨_, _ | _⟩ <;> rfl
    unfold uriString Uri.string
    rw [h]

/-! ## What fails -/

/-- A program that lets a name of this host become one of another. -/
def foreign : List Step := [.make 0 b!"uid=jesse,dc=example" BindUDN, .assign b!"ldap://ldap.example.com/"]

/-- A program that makes a name while the variable has another value, and restores it. -/
def restored : List Step := [.assign b!"ldaps:///", .make 0 b!"ldap:///uid=jesse" BindUDN]

example : (start.run Str.eqFold foreign).bindText 0 = b!"ldap://ldap.example.com/uid=jesse,dc=example" := by
  decide

example : (start.run Str.eqFold (restored ++ [.assign b!"ldap:///"])).bindText 0
    = b!"ldap:///ldap:///uid=jesse" := by decide

/-- **C111** fails: a program that assigns `LocalScheme` changes the text of every name, also of
those made before. -/
theorem C111_counterexample : ¬ ClaimLocal := by
  intro h
  rcases (h EqualFold.ref foreign 0).1 with ⟨⟨w, hw⟩, _⟩ | ⟨hw, _⟩
  · rw [show (start.run EqualFold.ref.eq foreign).bindText 0 =
      b!"ldap://ldap.example.com/uid=jesse,dc=example" from by decide] at hw
    simp at hw
  · exact absurd hw (by decide)

/-- **C111** fails: a name that was made in the meantime keeps the scheme within it. -/
theorem C111_restored_counterexample : ¬ ClaimForgotten := by
  intro h
  exact absurd (h EqualFold.ref restored 0) (by decide)

example : (∀ s, .assign s ∉ [Step.make 0 b!"ldap:///uid=jesse" BindUDN, .name 1 0]) ∧
    (start.run Str.eqFold [.make 0 b!"ldap:///uid=jesse" BindUDN, .name 1 0]).uriText 1
      = b!"ldap:///uid=jesse??base?" := by
  refine ⟨fun s h => by simp at h, by decide⟩

example : b!"ldaps:///" ≠ [] ∧
    (start.run Str.eqFold [.make 0 b!"uid=jesse" BindGDN, .assign b!"ldaps:///"]).names 0
      = some ⟨BindGDN, some b!"uid=jesse"⟩ := ⟨by decide, by decide⟩

end Verif.Scheme
