import Verif.Model.Find

/-!
# What a list shows of its entries
-/

namespace Verif.Find
open Verif Verif.Attr Verif.DN Verif.DNList Verif.Oid Verif.Filter Verif.Rules Verif.PB Verif.Ins

/-- A list with entries of type `E` and arguments of type `A` as a caller sees it: its length, its
entries by their number, what `Pop` returns and leaves, and what it contains.  `given` is an entry as
an argument, `asText` a text as an argument; `text` is the text of an entry. -/
structure View (E A : Type) where
  len : Nat
  index : Int → E
  pop : E
  rest : List E
  contains : A → Bool
  given : E → A
  asText : Str → A
  text : E → Str

/-- The list shows the entries `es` by their number. -/
def View.Indexed {E A : Type} (v : View E A) (es : List E) : Prop :=
  v.len = es.length ∧ ∀ (i : Nat) (e : E), es[i]? = some e → v.index i = e

/-- `Pop` returns the last of the entries `es` and leaves the others. -/
def View.Pops {E A : Type} (v : View E A) (es : List E) : Prop :=
  v.rest = es.dropLast ∧ ∀ e, es.getLast? = some e → v.pop = e

/-- Every entry is found. -/
def View.Finds {E A : Type} (v : View E A) (es : List E) : Prop := ∀ e ∈ es, v.contains (v.given e) = true

/-- Every entry is found by its text. -/
def View.FindsText {E A : Type} (v : View E A) (es : List E) : Prop :=
  ∀ e ∈ es, v.contains (v.asText (v.text e)) = true

/-- A value is found only if an entry has its text. -/
def View.Only {E A : Type} (same : Str → Str → Bool) (v : View E A) (es : List E) : Prop :=
  ∀ e, v.contains (v.given e) = true → ∃ e' ∈ es, same (v.text e') (v.text e) = true

/-- The list shows and finds the entries `es` and no others. -/
structure View.Faithful {E A : Type} (same : Str → Str → Bool) (v : View E A) (es : List E) : Prop where
  indexed : v.Indexed es
  pops : v.Pops es
  finds : v.Finds es
  findsText : v.FindsText es
  only : v.Only same es

/-! ## The nine types -/

def viewAT (eq : Str → Str → Bool) (far : List AttributeType → Int → Option AttributeType) (r : ATs) :
    View AttributeType PushArg :=
  ⟨len r.entries, indexAT far r.entries, popAT r.entries, r.pop.entries, containsAT eq r.entries,
    .at_, .str, AttributeType.string⟩

/-- `Pop` of a list of bind names returns a name, not an address. -/
def viewB (eq : Str → Str → Bool) (far : List BEntry → Int → Option BEntry) (r : BDNs) : View BEntry BArg :=
  ⟨len r.entries, indexB far r.entries, .dn r.pop.2, r.pop.1.entries, r.contains eq,
    fun e => match e with
      | .dn d => .dn d
      | .uri u => .uri u,
    .str, BEntry.string⟩

def viewT (eq : Str → Str → Bool) (far : List TargetDN → Int → Option TargetDN) (r : TDNs) :
    View TargetDN DNList.TArg :=
  ⟨len r.entries, indexT far r.entries, r.pop.2, r.pop.1.entries, r.contains eq, .dn, .str, TargetDN.string⟩

/-- The text of an entry that is a keyword is its name. -/
def viewO (eq : Str → Str → Bool) (far : List Entry → Int → Option Entry) (r : OIDs) : View Entry Oid.Arg :=
  ⟨len r.entries, fun i => .oid (indexO far r.entries i), .oid r.pop.2, r.pop.1.entries, r.contains eq,
    fun e => match e with
      | .oid o => .oid o
      | .kw k => .kw k,
    .str, fun e => match e with
      | .oid o => Oid.string o
      | .kw k => TargetKeyword.string k⟩

def viewF (far : List AttributeFilter → Int → Option AttributeFilter) (r : AFO) : View AttributeFilter AFOArg :=
  ⟨len r.entries, indexF far r.entries, r.pop.2, r.pop.1.entries, r.contains, .af, .str, AttributeFilter.string⟩

/-- Operations that are not initialized are none. -/
def viewA (far : List AFO → Int → Option AFO) (r : AFOs) : View (Option AFO) AFOsArg :=
  ⟨len r.entries, indexA far r.entries, r.pop.2, r.pop.1.entries.map some, AFOs.contains r.entries,
    fun e => match e with
      | some a => .afo a
      | none => .other,
    .str, fun e => match e with
      | some a => a.string
      | none => []⟩

/-- A list of target rules is asked for keywords. -/
def viewR (far : List TRule → Int → Option TRule) (es : List TRule) : View TRule KwArg :=
  ⟨len es, indexR far es, (TRs.pop es).2, (TRs.pop es).1, TRs.contains es,
    fun r => .target r.keyword, .str, fun r => TargetKeyword.string r.keyword⟩

def viewP (w : World) (rd : Str → Option Store) (far : List PBRule → Int → Option PBRule) (es : List PBRule) :
    View PBRule PArg :=
  ⟨len es, indexP far es, (PB.pop es).2, (PB.pop es).1, PB.contains w rd es, .rule, .str, PB.string w⟩

def viewI (w : World) (far : List Instruction → Int → Option Instruction) (es : List Instruction) :
    View Instruction IArg :=
  ⟨len es, indexI far es, (Ins.pop es).2, (Ins.pop es).1, Ins.contains w es, .ins, .str, Ins.string w⟩

end Verif.Find
