import Verif.Path.Model

/-! What the path properties speak about: the grammar of names, trees whose siblings have
distinct names, and walks through a tree. -/
namespace Verif.Path

/-- The SMP grammar of object names: a letter followed by letters, digits and underscores,
or a decimal number in square brackets. -/
def Grammar (s : Str) : Prop :=
  (∃ c w, s = c :: w ∧ c.isAlpha = true ∧
      ∀ x ∈ w, x.isAlpha = true ∨ x.isDigit = true ∨ x = '_') ∨
    (∃ ds, s = '[' :: (ds ++ [']']) ∧ ds ≠ [] ∧ ∀ x ∈ ds, x.isDigit = true)

/-- The objects that can be named in a path: all but containers, references and operation
parameters. -/
def Kind.named : Kind → Bool
  | .container | .reference | .parameter => false
  | _ => true

/-- Fields, other than failures. -/
def Kind.plainField : Kind → Bool
  | .simpleField | .structField | .arrayField | .anonArray => true
  | _ => false

/-- Which objects may be the children of which. -/
def allowed : Kind → Kind → Bool
  | .simulator, k => k == .component || k == .container
  | .component, k => k != .simulator && k != .parameter
  | .structField, k => k.plainField
  | .arrayField, k => k.plainField
  | .anonArray, k => k.plainField
  | .operation, k => k == .parameter
  | _, _ => false

/-- A tree of objects below a simulator, with valid names, in which two objects of the same
parent that can be named in a path have different names, and the items of an array are
called `[0]`, `[1]`, ... -/
structure Wf (T : Node) : Prop where
  root : T.kind = .simulator
  kinds : ∀ a n, get T a = some n → ∀ c ∈ n.children, allowed n.kind c.kind = true
  names : ∀ a n, get T a = some n → ∀ c ∈ n.children, Grammar c.name
  distinct : ∀ a n, get T a = some n → ∀ (i j : Nat) (c d : Node), n.children[i]? = some c →
    n.children[j]? = some d → c.kind.named = true → d.kind.named = true →
    c.name = d.name → i = j
  items : ∀ a n, get T a = some n → n.kind = .arrayField → ∀ (i : Nat) (c : Node),
    n.children[i]? = some c → c.name = '[' :: (Nat.toDigits 10 i ++ [']'])
  size : ∀ a n, get T a = some n → n.children.length ≤ 9223372036854775807

/-- No object strictly above this one is an array made by `IPublication::PublishArray`. -/
def NotInAnonymousArray (T : Node) (a : Addr) : Prop :=
  ∀ i p, (i :: p) <:+ a → kindAt T p ≠ some .anonArray

/-- The segment `..`. -/
def dots : Str := ['.', '.']

/-- A white-space character of the "C" locale. -/
def Blank (c : Char) : Prop := c ∈ [' ', '\t', '\n', '\x0b', '\x0c', '\r']

/-- The segment `s` designates item `i` of an array of `size` items: a decimal number between
brackets, possibly after white space and a sign; a negative number counts from the end. -/
def Designates (s : Str) (size i : Nat) : Prop :=
  ∃ ws sign ds, s = '[' :: (ws ++ sign ++ ds ++ [']']) ∧ (∀ c ∈ ws, Blank c) ∧ ds ≠ [] ∧
    (∀ c ∈ ds, c.isDigit = true) ∧ i < size ∧
    (((sign = [] ∨ sign = ['+']) ∧ Nat.ofDigitChars 10 ds 0 = i) ∨
     (sign = ['-'] ∧ (Nat.ofDigitChars 10 ds 0 + i = size ∨ (Nat.ofDigitChars 10 ds 0 = 0 ∧ i = 0))))

/-- One step of a path without `..`: to a child by its name (or by `_` and its name for
containers and references), to an item of an array by its index, which may count from the
end, or to a referenced component by its name. -/
inductive Step (T : Node) (refs : Refs) : Addr → Str → Addr → Prop
  | child {a n i c s} : get T a = some n → n.children[i]? = some c → c.kind.named = true →
      c.name = s → Step T refs a s (i :: a)
  | under {a n i c s} : get T a = some n → n.children[i]? = some c →
      c.kind = .container ∨ c.kind = .reference → '_' :: c.name = s →
      Step T refs a s (i :: a)
  | item {a n i s} : get T a = some n → n.kind.isArray = true →
      Designates s n.children.length i → Step T refs a s (i :: a)
  | ref {a b s} : b ∈ refs a → nameAt T b = s → Step T refs a s b

/-- The object at the end of a sequence of steps. -/
inductive Walk (T : Node) (refs : Refs) : Addr → List Seg → Addr → Prop
  | done (a) : Walk T refs a [] a
  | step {a b c d s r} : Step T refs a s b → Walk T refs b r c →
      Walk T refs a ((d, s) :: r) c

/-- The ways along which the code goes: `..` leads to the parent, another segment is a step, and one
segment is lost at a field that is known as an object only, because the way began there or came there
by `..` or by the name of a failure. The truth value: is the object at hand known as a field? -/
inductive Way (T : Node) (refs : Refs) : Bool → Addr → List Seg → Addr → Prop
  | done (k a) : Way T refs k a [] a
  | up {k a p b d r} : parent T a = some p → Way T refs false p r b →
      Way T refs k a ((d, dots) :: r) b
  | step {k a b c d s r} : s ≠ dots → Step T refs a s b →
      Way T refs ((kindAt T b).map Kind.plainField == some true) b r c →
      Way T refs k a ((d, s) :: r) c
  | lost {a b d s r} : s ≠ dots → (∃ k, kindAt T a = some k ∧ k.isField = true) →
      Way T refs true a r b → Way T refs false a ((d, s) :: r) b

end Verif.Path
