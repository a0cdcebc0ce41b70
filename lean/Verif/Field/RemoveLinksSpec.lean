import Verif.Field.Published
import Verif.Field.TreeProps

/-! Specification for C87: the links of all the fields seen as a list of connections. -/
namespace Verif.Field

/-- A connection that was made: `Connect` of the first field with the second one. -/
abbrev Conn := FTree × FTree

/-- The identity of a field. -/
def FTree.ident : FTree → Nat
  | .simple i => i
  | .sarray i => i
  | .node _ id _ => id

/-- The connection starts at this field. -/
def Conn.from (t : FTree) (c : Conn) : Bool := c.1.key == t.key

/-- The connection ends in a field of the component, or of a component below it. -/
def Conn.into (e : Where) (target : Nat) (c : Conn) : Bool :=
  decide (target ∈ e.chain c.2.cls c.2.ident)

/-- The targets that connections give to a field: those of the corresponding fields in them, in
the order of the connections. -/
def gives (k i : Nat) (cs : List Conn) : List Nat := cs.flatMap fun c => given k i (pairs c.1 c.2)

/-- Fields that keep a list of inputs: all but arrays and structures that are not dataflow
fields. -/
def World.keeps (w : World) (k i : Nat) : Prop := k < 2 ∨ (k = 2 ∧ w.nflow i = true)

/-- The inputs of all the fields are those of the connections. -/
def Built (w : World) (cs : List Conn) : Prop :=
  ∀ k i, w.keeps k i → w.targets k i = gives k i cs

/-- The connections are between fields of the same structure, no field occurs twice in the
source, and `e` knows the targets. The components above a field are those above the fields in
it. -/
structure Sound (e : Where) (c : Conn) : Prop where
  shape : sameShape c.1 c.2 = true
  once : ((pairs c.1 c.2).map Link.source).Nodup
  known : e.field c.1 c.2.ident = c.2

/-- The inputs of the fields come from these connections. -/
structure Linked (e : Where) (w : World) (cs : List Conn) : Prop where
  built : Built w cs
  nodup : ∀ k i, w.keeps k i → (w.targets k i).Nodup
  sound : ∀ c ∈ cs, Sound e c

/-- The dataflow fields: connectable and outputs. -/
def World.flow (w : World) : FTree → Bool
  | .simple i => (w.net i).connectable && (w.net i).output
  | .sarray i => (w.arrs i).connectable && (w.arrs i).output
  | .node _ id _ => w.nflow id

mutual
/-- The outermost dataflow fields of a field. -/
def flows (w : World) : FTree → List FTree
  | .simple i => if w.flow (.simple i) then [.simple i] else []
  | .sarray i => if w.flow (.sarray i) then [.sarray i] else []
  | .node s id ts => if w.flow (.node s id ts) then [.node s id ts] else flowsList w ts
def flowsList (w : World) : List FTree → List FTree
  | [] => []
  | t :: ts => flows w t ++ flowsList w ts
end

/-- What happens to the connections that start at `t`: those into the target are removed, but the
one after a removed one is kept without being looked at. -/
def prune (e : Where) (target : Nat) (t : FTree) : Bool → List Conn → List Conn
  | _, [] => []
  | skip, c :: cs =>
    if c.from t then
      if !skip && c.into e target then prune e target t true cs
      else c :: prune e target t false cs
    else c :: prune e target t skip cs

/-- No field but `t` itself has the identity of `t`. -/
def Own (cs : List Conn) (t : FTree) : Prop :=
  ∀ c ∈ cs, c.1 = t ∨ t.key ∉ (pairs c.1 c.2).map Link.source

/-- No two connections of `t` that follow each other are both into the target. -/
def Apart (e : Where) (target : Nat) (t : FTree) (cs : List Conn) : Prop :=
  ∀ a b : Conn, ∀ l r, cs.filter (Conn.from t) = l ++ a :: b :: r →
    ¬ (a.into e target = true ∧ b.into e target = true)

end Verif.Field
