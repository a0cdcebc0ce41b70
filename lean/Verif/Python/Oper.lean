import Verif.Python.Value

/-
Model of the operators that Python code applies to the simple fields and properties of a simulator:
the methods `__add__` … `__invert__`, `__eq__` … `__ge__` and `__bool__` that the binding defines
(src/python/Smp/ISimpleFieldBinding.h:48-188, IPropertyBinding.h:50-189), called as Python calls
them, and of the statements that store the results (IObjectBinding.h:26-51).

Python's own rules are modelled from the language reference: the method of the left operand is called
first, except when the class of the right operand is a subclass with a method of its own; a plain value
(a number, a text, `None`) does not know the operand of another class and gives way to it; a class that
defines `__eq__` and no `__ne__` inherits the `__ne__` that negates it.  What the operators do with two
plain values is a parameter (`Prim`).  Left out: the `str` operator `%`, which accepts every operand.
-/
namespace Verif.Python.Oper

open Verif.Any Verif.Python.Value

/-- The exceptions of this part. (ecss_smp.cpp:426-536; Property.cpp:153-176.) -/
inductive Err
  | cast | value | unicode
  /-- `TypeError` of Python: no class of the operands defines the operator. -/
  | type
  | anyType
  /-- `InvalidAccessKind`. (Property.cpp:155-160, 167-172.) -/
  | access
  | ub
  deriving DecidableEq

/-- Of the model only: the results of `convert` (Verif/Python/Value.lean) as exceptions.
(ecss_smp.cpp:426-536.) -/
def lift {α : Type} : Res α → Except Err α
  | .ok a => .ok a
  | .castError => .error .cast
  | .valueError => .error .value
  | .unicodeError => .error .unicode
  | .typeError => .error .type
  | .invalidAnyType => .error .anyType
  | .ub => .error .ub

/-- The binary operators of Python on numbers. The first nine have a method in the binding, the last
three have none. (ISimpleFieldBinding.h:83-172; IPropertyBinding.h:85-174.) -/
inductive Bin
  | add | sub | mul | truediv | lshift | rshift | and | xor | or | floordiv | mod | pow
  deriving DecidableEq

/-- Whether the binding defines `__op__` and `__rop__`. (ISimpleFieldBinding.h:83-172;
IPropertyBinding.h:85-174.) -/
def Bin.bound : Bin → Bool
  | .add => true | .sub => true | .mul => true | .truediv => true | .lshift => true
  | .rshift => true | .and => true | .xor => true | .or => true
  | .floordiv => false | .mod => false | .pow => false

/-- The comparisons. (ISimpleFieldBinding.h:53-81; IPropertyBinding.h:55-83.) -/
inductive Cmp
  | eq | ne | lt | le | gt | ge
  deriving DecidableEq

/-- The method of the right operand that stands for a comparison (Python data model;
ISimpleFieldBinding.h:53-81). -/
def Cmp.swap : Cmp → Cmp
  | .eq => .eq | .ne => .ne | .lt => .gt | .le => .ge | .gt => .lt | .ge => .le

/-- The unary operators. (ISimpleFieldBinding.h:175-188; IPropertyBinding.h:177-189.) -/
inductive Un
  | neg | pos | invert
  deriving DecidableEq

/-- What Python's operators do with plain values, a parameter of the model (the operators of
`py::object`, ISimpleFieldBinding.h:53-188, call them). -/
structure Prim where
  bin : Bin → Py → Py → Except Err Py
  cmp : Cmp → Py → Py → Except Err Bool
  un : Un → Py → Except Err Py

/-- The Python object of a simple field or of a property; it refers to it and holds no value.
(ISimpleFieldBinding.h:27; IPropertyBinding.h:28.) -/
inductive Handle
  | field (i : Nat)
  | prop (i : Nat)
  deriving DecidableEq

/-- `AccessKind`. (Property.cpp:153-176.) -/
inductive Access
  | readWrite | readOnly | writeOnly
  deriving DecidableEq

/-- A property, with the field that its getter and setter use. Simplified: generated code, in which a
property reads and writes one field of its own type (C92). (Property.cpp:137-141.) -/
structure PropDef where
  cell : Nat
  access : Access

/-- The fields and properties of the simulator. (Property.cpp:137-176; ISimpleFieldBinding.h:33-46.) -/
structure Sim where
  fields : Nat → Any
  props : Nat → PropDef

/-- An object of Python: a plain value or a field or property. (ISimpleFieldBinding.h:27;
IPropertyBinding.h:28.) -/
inductive Obj
  | val (p : Py)
  | handle (h : Handle)

/-- `convert(self.GetValue())`; a property that is write-only raises. (ISimpleFieldBinding.h:33-38;
IPropertyBinding.h:37-40; Property.cpp:153-164.) -/
def read (S : Sim) : Handle → Except Err Py
  | .field i => lift (toPy (S.fields i))
  | .prop i =>
    match (S.props i).access with
    | .writeOnly => .error .access
    | _ => lift (toPy (S.fields (S.props i).cell))

section Dispatch

variable (P : Prim) (first : Handle → Handle → Bool) (S : Sim)

/-- A plain value on the left: with a plain value on the right Python's own operator; otherwise the
`__rop__` of the right operand, `other op convert(self.GetValue())`.
(ISimpleFieldBinding.h:128-172; IPropertyBinding.h:130-174.) -/
def binLeft (op : Bin) (a : Py) : Obj → Except Err Py
  | .val b => P.bin op a b
  | .handle h =>
    if op.bound then (read S h).bind fun v => P.bin op a v else .error .type

/-- A plain value on the right: the `__op__` of the left operand, `convert(self.GetValue()) op other`.
(ISimpleFieldBinding.h:83-126; IPropertyBinding.h:85-128.) -/
def binRight (op : Bin) (l : Obj) (b : Py) : Except Err Py :=
  match l with
  | .val a => P.bin op a b
  | .handle h =>
    if op.bound then (read S h).bind fun v => P.bin op v b else .error .type

/-- `l op r`. For two handles the method of one of them is called, `first` says which, and applies the
operator to its value and the other handle. (ISimpleFieldBinding.h:83-172; IPropertyBinding.h:85-174.) -/
def binop (op : Bin) (l r : Obj) : Except Err Py :=
  match l, r with
  | .val a, r => binLeft P S op a r
  | .handle h, .val b => binRight P S op (.handle h) b
  | .handle h, .handle g =>
    if op.bound then
      if first h g then (read S g).bind fun v => binRight P S op (.handle h) v
      else (read S h).bind fun v => binLeft P S op v (.handle g)
    else .error .type

/-- `convert(self.GetValue()) op other` of a comparison, with a plain value on the left: with a plain
value on the right Python's own comparison; otherwise the mirrored method of the right operand.
(ISimpleFieldBinding.h:53-81; IPropertyBinding.h:55-83.) -/
def cmpLeft (c : Cmp) (a : Py) : Obj → Except Err Bool
  | .val b => P.cmp c a b
  | .handle h => (read S h).bind fun v => P.cmp c.swap v a

/-- The method of a handle for a comparison. `__ne__` is not defined, the binding has `__nq__` in its
place, so that the inherited one negates `__eq__`. (ISimpleFieldBinding.h:53-81;
IPropertyBinding.h:55-83.) -/
def cmpMethod (c : Cmp) (h : Handle) (other : Obj) : Except Err Bool :=
  match c with
  | .ne => ((read S h).bind fun v => cmpLeft P S .eq v other).map (! ·)
  | c => (read S h).bind fun v => cmpLeft P S c v other

/-- `l c r`. (ISimpleFieldBinding.h:53-81; IPropertyBinding.h:55-83.) -/
def cmp (c : Cmp) (l r : Obj) : Except Err Bool :=
  match l, r with
  | .val a, .val b => P.cmp c a b
  | .val a, .handle g => cmpMethod P S c.swap g (.val a)
  | .handle h, .val b => cmpMethod P S c h (.val b)
  | .handle h, .handle g =>
    if first h g then cmpMethod P S c.swap g (.handle h) else cmpMethod P S c h (.handle g)

/-- The unary operators; `__pos__` is the value itself. (ISimpleFieldBinding.h:175-188;
IPropertyBinding.h:177-189.) -/
def unop (u : Un) : Obj → Except Err Py
  | .val a => P.un u a
  | .handle h =>
    match u with
    | .pos => read S h
    | u => (read S h).bind fun v => P.un u v

/-- The truth value of a plain value (Python data model; what `cast<bool>` of
ISimpleFieldBinding.h:48-51 stands for). -/
def pyTruth : Py → Bool
  | .none => false
  | .bool b => b
  | .int v => decide (v ≠ 0)
  | .float x => decide (x ≠ .fin 0)
  | .str s => !s.isEmpty
  | .field _ => true
  | .other => true

/-- `bool(o)`. (ISimpleFieldBinding.h:48-51; IPropertyBinding.h:50-53.) -/
def truth : Obj → Except Err Bool
  | .val a => .ok (pyTruth a)
  | .handle h => (read S h).bind fun v => lift (castBool v)

end Dispatch

/-- Expressions of Python. Of the model only: the uses of the methods of ISimpleFieldBinding.h:48-188. -/
inductive Expr
  | lit (p : Py)
  | var (x : Nat)
  /-- `component.name`. (IObjectBinding.h:56-64.) -/
  | attr (h : Handle)
  | bin (op : Bin) (a b : Expr)
  | cmp (c : Cmp) (a b : Expr)
  | un (u : Un) (a : Expr)
  | not (a : Expr)
  | and (a b : Expr)
  | or (a b : Expr)

/-- Evaluation of an expression by Python, from left to right. (ISimpleFieldBinding.h:48-188;
IPropertyBinding.h:50-189.) -/
def eval (P : Prim) (first : Handle → Handle → Bool) (env : Nat → Obj) (S : Sim) :
    Expr → Except Err Obj
  | .lit p => .ok (.val p)
  | .var x => .ok (env x)
  | .attr h => .ok (.handle h)
  | .bin op a b =>
    (eval P first env S a).bind fun l => (eval P first env S b).bind fun r =>
      (binop P first S op l r).map .val
  | .cmp c a b =>
    (eval P first env S a).bind fun l => (eval P first env S b).bind fun r =>
      (cmp P first S c l r).map fun t => .val (.bool t)
  | .un u a => (eval P first env S a).bind fun l => (unop P S u l).map .val
  | .not a => (eval P first env S a).bind fun l => (truth S l).map fun t => .val (.bool !t)
  | .and a b =>
    (eval P first env S a).bind fun l => (truth S l).bind fun t =>
      if t then eval P first env S b else .ok l
  | .or a b =>
    (eval P first env S a).bind fun l => (truth S l).bind fun t =>
      if t then .ok l else eval P first env S b

/-- What `convert(value, kind)` sees of an object: a plain value, a simple field with its value; a
property is no `ISimpleField`, it is a truth value for `Bool` and nothing for another kind.
(ecss_smp.cpp:461-536.) -/
def argOf (S : Sim) (kind : Kind) : Obj → Py
  | .val p => p
  | .handle (.field i) => .field (S.fields i)
  | .handle (.prop i) =>
    match kind with
    | .Bool => match truth S (.handle (.prop i)) with
      | .ok b => .bool b
      | .error _ => .other
    | _ => .other

/-- Of the model only: a field gets a value. (IObjectBinding.h:38-49.) -/
def Sim.set (S : Sim) (i : Nat) (v : Any) : Sim :=
  { S with fields := fun j => if j = i then v else S.fields j }

/-- `component.name = object`: nothing if it is the object of that name, otherwise `SetValue`.
(IObjectBinding.h:26-51, 66-73; Property.cpp:166-176.) -/
def setAttr (narrow : Fl → Fl) (S : Sim) (h : Handle) (o : Obj) : Except Err Sim :=
  match o with
  | .handle g => if g = h then .ok S else put o
  | .val _ => put o
where
  /-- The conversion and `SetValue`. (IObjectBinding.h:38-47; Property.cpp:166-176.) -/
  put (o : Obj) : Except Err Sim :=
    match h with
    | .field i =>
      (lift (assign narrow (S.fields i) (argOf S (S.fields i).type o))).map fun v => S.set i v
    | .prop i =>
      let c := (S.props i).cell
      (lift (ofPy narrow (argOf S (S.fields c).type o) (S.fields c).type)).bind fun v =>
        match (S.props i).access with
        | .readOnly => .error .access
        | _ => (lift (store (S.fields c).type v)).map fun v => S.set c v

/-- Statements. Neither fields nor plain values define `__iadd__` and its like, so that an augmented
assignment evaluates the operator and assigns its result. (ISimpleFieldBinding.h:48-188;
IObjectBinding.h:66-73.) -/
inductive Stmt
  /-- `x = e` for a local name. -/
  | setVar (x : Nat) (e : Expr)
  /-- `x op= e` for a local name. -/
  | augVar (x : Nat) (op : Bin) (e : Expr)
  /-- `component.name = e`. (IObjectBinding.h:66-73.) -/
  | setAttr (h : Handle) (e : Expr)
  /-- `component.name op= e`. (IObjectBinding.h:56-73.) -/
  | augAttr (h : Handle) (op : Bin) (e : Expr)

/-- One statement. (IObjectBinding.h:56-73; ISimpleFieldBinding.h:48-188.) -/
def exec (P : Prim) (first : Handle → Handle → Bool) (narrow : Fl → Fl) (env : Nat → Obj) (S : Sim) :
    Stmt → Except Err ((Nat → Obj) × Sim)
  | .setVar x e => (eval P first env S e).map fun o => (fun y => if y = x then o else env y, S)
  | .augVar x op e =>
    (eval P first env S e).bind fun r => (binop P first S op (env x) r).map fun v =>
      (fun y => if y = x then .val v else env y, S)
  | .setAttr h e =>
    (eval P first env S e).bind fun o => (setAttr narrow S h o).map fun S' => (env, S')
  | .augAttr h op e =>
    (eval P first env S e).bind fun r => (binop P first S op (.handle h) r).bind fun v =>
      (setAttr narrow S h (.val v)).map fun S' => (env, S')

/-- A program; it ends at the first exception. (IObjectBinding.h:56-73.) -/
def runAll (P : Prim) (first : Handle → Handle → Bool) (narrow : Fl → Fl) (env : Nat → Obj) (S : Sim) :
    List Stmt → ((Nat → Obj) × Sim) × Option Err
  | [] => ((env, S), none)
  | s :: l =>
    match exec P first narrow env S s with
    | .ok (env, S) => runAll P first narrow env S l
    | .error e => ((env, S), some e)

end Verif.Python.Oper
