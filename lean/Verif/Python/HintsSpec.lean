import Verif.Python.Hints
import Verif.Python.ClassProps
import Verif.Python.Attr
import Verif.Path.Spec

/-!
What C124 speaks about: how Python reads a file of type hints, and what the hints of a simulator should
say. The reader knows only a part of Python: one `import`, classes with a list of bases, annotated
names, functions without parameters, `pass` and texts between triple quotes. It refuses everything else,
in particular what Python itself refuses: names that are keywords, lines that are not indented like the
block they belong to, classes without body, and names that have not been defined.
-/
namespace Verif.Python.Hints
open Verif.Path (Str)
open Verif.Python.Class (Ifc Lawful Above)

/-! ### Characters and lines -/

/-- A character, or a text between triple quotes. -/
inductive Tok
  | ch (c : Char)
  | str (s : Str)
  deriving DecidableEq

/-- A character of a name. -/
def word (c : Char) : Bool := c.isAlphanum || c == '_'

/-- A character that can stand outside texts (in the part of Python considered here). -/
def safe (c : Char) : Bool := word c || c ∈ ['.', ',', '(', ')', ':', ' ', '\n']

/-- The characters and texts of a file. The first argument is the part of a text that has been read, last
character first. A text with a backslash, a carriage return or a zero byte is refused. -/
def lex : Option Str → Str → Option (List Tok)
  | none, '"' :: '"' :: '"' :: r => lex (some []) r
  | none, c :: r => if safe c then (lex none r).map (.ch c :: ·) else none
  | none, [] => some []
  | some acc, '"' :: '"' :: '"' :: r => (lex none r).map (.str acc.reverse :: ·)
  | some acc, c :: r =>
    if c = '\\' ∨ c = '\r' ∨ c = '\x00' then none else lex (some (c :: acc)) r
  | some _, [] => none

/-- The lines of a file. -/
def rows : List Tok → List (List Tok)
  | [] => [[]]
  | .ch '\n' :: r => [] :: rows r
  | t :: r => match rows r with
    | l :: ls => (t :: l) :: ls
    | [] => [[t]]

/-- What a line says. -/
inductive Item
  | imp (name : Str)
  | cls (name : Str) (bases : List Str)
  | ann (name type : Str)
  | op (name : Str)
  | pass
  | doc (s : Str)
  deriving DecidableEq

/-- The keywords of Python. -/
def keywords : List String :=
  ["False", "None", "True", "and", "as", "assert", "async", "await", "break", "class", "continue",
   "def", "del", "elif", "else", "except", "finally", "for", "from", "global", "if", "import", "in",
   "is", "lambda", "nonlocal", "not", "or", "pass", "raise", "return", "try", "while", "with", "yield"]

/-- An identifier of Python (of ASCII characters). -/
def ident (s : Str) : Bool :=
  s.all word && s.head?.any (fun c => !c.isDigit) && !(keywords.any fun k => k.toList == s)

/-- The bases of a class, up to the end of the line. The first argument is the part of a base that has
been read, last character first. -/
def args : Str → Str → Option (List Str)
  | acc, [')', ':'] => if acc = [] then some [] else some [acc.reverse]
  | acc, ',' :: ' ' :: r => (args [] r).map (acc.reverse :: ·)
  | acc, c :: r => if word c || c == '.' then args (c :: acc) r else none
  | _, [] => none

/-- What a line of characters says. -/
def parse (s : Str) : Option Item :=
  let first := s.takeWhile word
  let rest := s.dropWhile word
  if first = "pass".toList then (if rest = [] then some .pass else none)
  else if first = "import".toList then
    match rest with
    | ' ' :: m => if ident m then some (.imp m) else none
    | _ => none
  else if first = "class".toList then
    match rest with
    | ' ' :: r => if ident (r.takeWhile word) then
        match r.dropWhile word with
        | '(' :: l => (args [] l).map (.cls (r.takeWhile word))
        | _ => none
      else none
    | _ => none
  else if first = "def".toList then
    match rest with
    | ' ' :: r => if ident (r.takeWhile word) ∧ r.dropWhile word = "(self, ): ...".toList
      then some (.op (r.takeWhile word)) else none
    | _ => none
  else if ident first then
    match rest with
    | ':' :: ' ' :: t => some (.ann first t)
    | _ => none
  else none

/-- The character of a token. -/
def Tok.char? : Tok → Option Char
  | .ch c => some c
  | .str _ => none

/-- A line: by how many spaces it is indented and what it says; nothing if it is empty. -/
def line (l : List Tok) : Option (Option (Nat × Item)) :=
  let n := (l.takeWhile (· == .ch ' ')).length
  match l.dropWhile (· == .ch ' ') with
  | [] => some none
  | [.str s] => some (some (n, .doc s))
  | r => (r.mapM Tok.char?).bind fun s => (parse s).map fun i => some (n, i)

/-! ### Blocks -/

/-- A statement; a class has a block of its own. -/
inductive Stmt
  | imp (name : Str)
  | cls (name : Str) (bases : List Str) (body : List Stmt)
  | ann (name type : Str)
  | op (name : Str)
  | pass
  | doc (s : Str)

/-- The statements with an indentation of `n` and the lines that follow the block. The first line of the
body of a class must be indented more than the class; the others like the first. `f` bounds the number
of lines. -/
def block : Nat → Nat → List (Nat × Item) → Option (List Stmt × List (Nat × Item))
  | 0, _, _ => none
  | _ + 1, _, [] => some ([], [])
  | f + 1, n, (k, i) :: l =>
    if k < n then some ([], (k, i) :: l)
    else if n < k then none
    else match i with
      | .cls name bases => match l with
        | [] => none
        | (k', j) :: l' =>
          if k' ≤ n then none
          else (block f k' ((k', j) :: l')).bind fun (body, r) =>
            (block f n r).map fun (ss, r') => (.cls name bases body :: ss, r')
      | .imp m => (block f n l).map fun (ss, r) => (.imp m :: ss, r)
      | .ann a t => (block f n l).map fun (ss, r) => (.ann a t :: ss, r)
      | .op a => (block f n l).map fun (ss, r) => (.op a :: ss, r)
      | .pass => (block f n l).map fun (ss, r) => (.pass :: ss, r)
      | .doc s => (block f n l).map fun (ss, r) => (.doc s :: ss, r)

/-- The statements of a file. -/
def statements (s : Str) : Option (List Stmt) := do
  let ls ← (rows (← lex none s)).mapM line
  let (ss, r) ← block ((ls.filterMap id).length + 1) 0 (ls.filterMap id)
  if r = [] then some ss else none

/-! ### Meaning -/

/-- The interfaces that the module `ecss_smp` defines under a name, as far as they occur in hints. -/
def registered : List (String × Ifc) :=
  ([("IModel", .IModel), ("IService", .IService), ("IAggregate", .IAggregate),
    ("IReference", .IReference), ("IDynamicInvocation", .IDynamicInvocation),
    ("IProperty", .IProperty), ("IEventConsumer", .IEventConsumer), ("IEventSink", .IEventSink),
    ("IEventProvider", .IEventProvider), ("IEventSource", .IEventSource),
    ("ILinkingComponent", .ILinkingComponent), ("ISimulator", .ISimulator),
    ("IComposite", .IComposite), ("IContainer", .IContainer),
    ("IEntryPointPublisher", .IEntryPointPublisher), ("IEntryPoint", .IEntryPoint),
    ("IForcibleField", .IForcibleField), ("ISimpleField", .ISimpleField),
    ("IArrayField", .IArrayField), ("ISimpleArrayField", .ISimpleArrayField),
    ("IStructureField", .IStructureField), ("IDataflowField", .IDataflowField),
    ("IFailure", .IFailure), ("IPersist", .IPersist)] : List (String × Ifc)).map
      (fun p => ("ecss_smp.Smp." ++ p.1, p.2)) ++
  ([("IEventManager", .IEventManager), ("ILinkRegistry", .ILinkRegistry), ("ILogger", .ILogger),
    ("IResolver", .IResolver), ("IScheduler", .IScheduler), ("ITimeKeeper", .ITimeKeeper)] :
      List (String × Ifc)).map (fun p => ("ecss_smp.Smp.Services." ++ p.1, p.2))

/-- The interface with that name. -/
def named (s : Str) : Option Ifc := (registered.find? (fun p => p.1.toList == s)).map (·.2)

mutual

/-- The type of an attribute: an interface, a class, or a function. -/
inductive Ty
  | ifc (i : Ifc)
  | cls (bases : List Ifc) (members : List Decl)
  | fn

/-- The declaration of an attribute, with the text that follows it. -/
inductive Decl
  | mk (name : Str) (type : Ty) (doc : Option Str)

end

/-- The name of a declared attribute. -/
def Decl.name : Decl → Str | .mk n _ _ => n
/-- The type of a declared attribute. -/
def Decl.type : Decl → Ty | .mk _ t _ => t

/-- The interfaces that the type of an attribute promises; a function promises an operation. -/
def Ty.promises : Ty → List Ifc
  | .ifc i => [i]
  | .cls b _ => b
  | .fn => [.IOperation]

/-- The declared attributes of a type; those of interfaces are methods. -/
def Ty.members : Ty → List Decl
  | .cls _ m => m
  | _ => []

/-- The type with that name: the last class that has been defined with it, or an interface. (Python
replaces a name with two leading underscores in a class by another one, the same everywhere in the
class.) -/
def typeNamed (env : List (Str × Ty)) (t : Str) : Option Ty :=
  match env.find? (fun p => p.1 == t) with
  | some p => some p.2
  | none => (named t).map .ifc

/-- The text that follows a declaration. -/
def docOf : List Stmt → Option Str
  | .doc s :: _ => some s
  | _ => none

mutual

/-- The class defined by a statement. -/
def classOf : Stmt → Option Ty
  | .cls _ bs body => do return .cls (← bs.mapM named) (← decls [] body)
  | _ => none

/-- The attributes declared by the body of a class. A body sees the classes defined before in the same
body, not those of the classes around it. A function with the name of the module would hide it. -/
def decls : List (Str × Ty) → List Stmt → Option (List Decl)
  | _, [] => some []
  | env, .cls n bs body :: l => do decls ((n, ← classOf (.cls n bs body)) :: env) l
  | env, .ann n t :: l => do return .mk n (← typeNamed env t) (docOf l) :: (← decls env l)
  | env, .op n :: l => if n = "ecss_smp".toList then none
    else do return .mk n .fn none :: (← decls env l)
  | env, .pass :: l => decls env l
  | env, .doc _ :: l => decls env l
  | _, .imp _ :: _ => none

end

/-- The class `Simulator` of a file of hints. -/
def read (s : Str) : Option Ty :=
  match statements s with
  | some [.imp m, .cls n bs body] =>
    if m = "ecss_smp".toList ∧ n = "Simulator".toList then classOf (.cls n bs body) else none
  | _ => none

/-! ### What the hints should say -/

/-- One object directly contains another: a field of a component or of a structure, or a component in a
container. -/
inductive Has : Obj → Obj → Prop
  | field {o f} : o.head.inst .IComponent = true ∨ o.head.inst .IStructureField = true →
      f ∈ o.fields → Has o f
  | component {o b c} : o.head.inst .IComposite = true → b ∈ o.containers → c ∈ b.components → Has o c

/-- The second object is the first or inside it. -/
inductive Inside : Obj → Obj → Prop
  | self {o} : Inside o o
  | step {o p q} : Has o p → Inside p q → Inside o q

/-- The attributes of an object that are not classes, with their interfaces: references and containers
have an underscore in front. -/
def Simple (o : Obj) (n : Str) (i : Ifc) : Prop :=
  let h := o.head
  (h.inst .IComponent = true ∧
    ((h.inst .IAggregate = true ∧ i = .IReference ∧ ∃ r ∈ h.references, n = '_' :: r) ∨
     (h.inst .IDynamicInvocation = true ∧ i = .IProperty ∧ n ∈ h.properties) ∨
     (h.inst .IEventConsumer = true ∧ i = .IEventSink ∧ n ∈ h.sinks) ∨
     (h.inst .IEventProvider = true ∧ i = .IEventSource ∧ n ∈ h.sources))) ∨
  (h.inst .IComposite = true ∧ i = .IContainer ∧ ∃ b ∈ o.containers, n = '_' :: b.name) ∨
  (h.inst .IEntryPointPublisher = true ∧ i = .IEntryPoint ∧ n ∈ h.entryPoints)

/-- The interfaces that hints show: those of components and fields, except `IFallibleModel`. -/
def shown : List Ifc :=
  [.IComponent, .IModel, .IService, .IEventManager, .ILinkRegistry, .ILogger, .IResolver, .IScheduler,
   .ITimeKeeper, .IAggregate, .IDynamicInvocation, .IEventConsumer, .IEventProvider,
   .ILinkingComponent, .IComposite, .ISimulator, .IEntryPointPublisher, .IPersist, .IField,
   .ISimpleField, .IForcibleField, .IArrayField, .ISimpleArrayField, .IStructureField,
   .IDataflowField, .IFailure]

/-- The text that follows the declaration of an object: its description, if it has one. -/
def Obj.doc (o : Obj) : Option Str := if o.head.desc = [] then none else some o.head.desc

mutual

/-- A class describes an object: its bases are interfaces of the object, all those that hints show are
among the bases or inherited by one of them, and its attributes are those of the object. -/
inductive Describes : Ty → Obj → Prop
  | mk {o bases members} (sub : Obj → Ty) :
      (∀ i ∈ bases, o.head.inst i = true) →
      (∀ i ∈ shown, o.head.inst i = true → ∃ b ∈ bases, b = i ∨ Above b i) →
      (∀ d ∈ members, Member o d) →
      (∀ n i, Simple o n i → .mk n (.ifc i) none ∈ members) →
      (o.head.inst .IComponent = true → o.head.inst .IDynamicInvocation = true →
        ∀ n ∈ o.head.operations, .mk n .fn none ∈ members) →
      (∀ p, Has o p → Describes (sub p) p) →
      (∀ p, Has o p → .mk p.head.name (sub p) p.doc ∈ members) →
      Describes (.cls bases members) o

/-- An attribute of an object: a reference, property, event sink or source, container or entry point by
its interface, an operation as a function, a field or a component by a class that describes it. -/
inductive Member : Obj → Decl → Prop
  | simple {o n i} : Simple o n i → Member o (.mk n (.ifc i) none)
  | operation {o n} : o.head.inst .IComponent = true → o.head.inst .IDynamicInvocation = true →
      n ∈ o.head.operations → Member o (.mk n .fn none)
  | object {o p t} : Has o p → Describes t p → Member o (.mk p.head.name t p.doc)

end

/-- The names that the hints of an object contain, its own apart. -/
def Names (o : Obj) (n : Str) : Prop :=
  n ∈ o.head.references ∨ n ∈ o.head.operations ∨ n ∈ o.head.properties ∨ n ∈ o.head.sinks ∨
    n ∈ o.head.sources ∨ n ∈ o.head.entryPoints ∨ ∃ b ∈ o.containers, n = b.name

/-- A name for Python: a letter followed by letters, digits and underscores, not a keyword, and not the
name of the module. -/
def PyName (n : Str) : Prop :=
  (∃ c w, n = c :: w ∧ c.isAlpha = true ∧ ∀ x ∈ w, x.isAlpha = true ∨ x.isDigit = true ∨ x = '_') ∧
    (∀ k ∈ keywords, n ≠ k.toList) ∧ n ≠ "ecss_smp".toList

/-- A description that can stand between triple quotes. -/
def PyText (s : Str) : Prop :=
  (∀ c ∈ s, c ≠ '\\' ∧ c ≠ '\r' ∧ c ≠ '\x00') ∧ s.getLast? ≠ some '"' ∧
    ¬ ∃ u v, s = u ++ "\"\"\"".toList ++ v

/-- The services that hints tell apart. -/
def services : List Ifc := [.IEventManager, .ILinkRegistry, .ILogger, .IResolver, .IScheduler, .ITimeKeeper]

/-- The kinds of fields. -/
def kinds : List Ifc := [.ISimpleField, .IArrayField, .ISimpleArrayField, .IStructureField]

/-- The interfaces of an object are closed under bases; a component is a model or a service and of one
kind, and a field is of one kind. -/
structure Sound (inst : Ifc → Bool) : Prop where
  lawful : Lawful inst
  component : inst .IComponent = true → inst .IModel = true ∨ inst .IService = true
  model : inst .IModel = true → inst .IService = false
  service : ∀ i ∈ services, ∀ j ∈ services, inst i = true → inst j = true → i = j
  field : inst .IField = true → ∃ i ∈ kinds, inst i = true
  kind : ∀ i ∈ kinds, ∀ j ∈ kinds, inst i = true → inst j = true → i = j

/-- What the hints of an object rely on: interfaces that fit together, a component that has been
published, names and descriptions that can stand in a Python file; no simulator is inside another. -/
structure Local (o : Obj) : Prop where
  sound : Sound o.head.inst
  published : o.head.inst .IComponent = true → o.head.published = true
  names : ∀ n, Names o n → PyName n
  inner : ∀ q, Has o q → q.head.inst .ISimulator = false ∧ PyName q.head.name ∧ PyText q.head.desc

/-- The same for an object and everything inside. -/
def Deep (o : Obj) : Prop := ∀ p, Inside o p → Local p

/-! ### Chains of attributes -/

/-- A type inside another: of an attribute, of an attribute of an attribute, … -/
inductive Part : Ty → Ty → Prop
  | self {t} : Part t t
  | step {t d u} : d ∈ t.members → Part d.type u → Part t u

/-- The type is that of a field. -/
def Ty.Field (t : Ty) : Prop := ∃ b ∈ t.promises, b = .IField ∨ Above b .IField

/-- The hints declare `object.n₁.n₂…` with a type, and no field is on the way. -/
inductive Along : Ty → List Str → Ty → Prop
  | nil {t} : Along t [] t
  | cons {t d l u} : ¬ t.Field → d ∈ t.members → Along d.type l u → Along t (d.name :: l) u

/-- In Python, `object.n₁.n₂…` is the object at that address. -/
inductive Chain (S : Attr.Sim) : Verif.Path.Addr → List Str → Verif.Path.Addr → Prop
  | nil {a} : Chain S a [] a
  | cons {a b c n l} : S.getAttr a n = .object b → Chain S b l c → Chain S a (n :: l) c

/-- What the hints are written for is the object at that address: same interfaces, and all that is
written about stands below that address. -/
inductive Shows (S : Attr.Sim) : Verif.Path.Addr → Obj → Prop
  | mk {a o k} (index : Obj → Nat) :
      Verif.Path.get S.tree a = some k →
      k.kind.isField = o.head.inst .IField →
      S.inst a = o.head.inst →
      (∀ n i, Simple o n i → ∃ j c, k.children[j]? = some c ∧ S.inst (j :: a) i = true ∧
        ((c.kind.named = true ∧ n = c.name) ∨
         ((c.kind = .container ∨ c.kind = .reference) ∧ n = '_' :: c.name))) →
      (∀ n ∈ o.head.operations, ∃ j c, k.children[j]? = some c ∧ S.inst (j :: a) .IOperation = true ∧
        c.kind.named = true ∧ n = c.name) →
      (∀ p, Has o p → ∃ c, k.children[index p]? = some c ∧ c.kind.named = true ∧ p.head.name = c.name) →
      (∀ p, Has o p → Shows S (index p :: a) p) →
      Shows S a o

end Verif.Python.Hints
