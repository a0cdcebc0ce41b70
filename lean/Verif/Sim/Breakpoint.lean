/-
Model of the breakpoint file of the simulator, and property C30.

Sources: `src/Xsmp/Simulator.cpp:361-392` (`Store`), `423-456` (`Restore`),
`src/Xsmp/StorageWriter.cpp`, `src/Xsmp/StorageReader.cpp`, `src/Xsmp/Publication/Field.cpp:462-501`,
`641-659`, `821-835`, `include/Xsmp/Field.h:432-453`, `600-615`, `809-822`, `1149-1162`.

The data of a field and what a component's own `Store` writes are blocks of bytes of a fixed size.
Null collections are empty ones.
-/

namespace Verif.Sim.Bp

/-- The contents of a file. (What Simulator.cpp:363-391 writes.) -/
abbrev Bytes := List UInt8

/-- A field. `simple`: `SimpleField` and `SimpleArrayField`, the bytes at their address
(`Publication/Field.cpp:491-501`, `641-659`), followed by the forced and failed flags for the fields
of `Field.h`. `group`: array and structure fields (`Publication/Field.cpp:462-476`, `821-835`);
`state` is `IsState()`, false for transient fields. -/
inductive Fld where
  | simple (state : Bool) (data : Bytes)
  | group (state : Bool) (items : List Fld)

mutual
/-- `Store` of a field: nothing when it is not part of the state. (Publication/Field.cpp:462-476.)
-/
def Fld.store : Fld → Bytes
  | .simple st d => if st then d else []
  | .group st items => if st then storeAll items else []
/-- The loop over the fields inside (Publication/Field.cpp:491-501). -/
def storeAll : List Fld → Bytes
  | [] => []
  | f :: fs => f.store ++ storeAll fs
end

/-- `StorageReader::Restore` (`StorageReader.cpp:50-64`): `n` bytes, or `CannotRestore` at the end
of the file. -/
def read (n : Nat) (b : Bytes) : Option (Bytes × Bytes) :=
  if n ≤ b.length then some (b.take n, b.drop n) else none

mutual
/-- `Restore` of a field: the size is that of the field. (Publication/Field.cpp:462-476.) -/
def Fld.restore : Fld → Bytes → Option (Fld × Bytes)
  | .simple st d, b =>
    if st then (read d.length b).map (fun r => (.simple st r.1, r.2)) else some (.simple st d, b)
  | .group st items, b =>
    if st then (restoreAll items b).map (fun r => (.group st r.1, r.2))
    else some (.group st items, b)
/-- The loop over the fields inside (Publication/Field.cpp:491-501). -/
def restoreAll : List Fld → Bytes → Option (List Fld × Bytes)
  | [], b => some ([], b)
  | f :: fs, b => do
    let (f', b') ← f.restore b
    let (fs', b'') ← restoreAll fs b'
    pure (f' :: fs', b'')
end

/-- `PersistKind` (`Simulator.cpp:361`): the value of an `int`, four bytes, low byte first. -/
inductive Kind where
  | PERSIST | COMPONENT | COMPOSITE | CONTAINER | FIELD
  deriving DecidableEq, Repr

/-- The mark of a section (Simulator.cpp:361). -/
def Kind.bytes : Kind → Bytes
  | .PERSIST => [0, 0, 0, 0]
  | .COMPONENT => [1, 0, 0, 0]
  | .COMPOSITE => [2, 0, 0, 0]
  | .CONTAINER => [3, 0, 0, 0]
  | .FIELD => [4, 0, 0, 0]

/-- `check` (`Simulator.cpp:423-431`): the kind read, or `CannotRestore`. -/
def check (k : Kind) (b : Bytes) : Option Bytes :=
  match read 4 b with
  | some (h, t) => if h = k.bytes then some t else none
  | none => none

/-- An object: what its own `Store` writes when it is an `IPersist`, its fields when it is an
`IComponent`, its containers with the components in them when it is an `IComposite`.
(Simulator.cpp:363-391.) -/
inductive Obj where
  | mk (persist : Option Bytes) (fields : Option (List Fld)) (ctns : Option (List (List Obj)))

/-- The object seen as `IPersist` (Simulator.cpp:363-391). -/
def Obj.persist : Obj → Option Bytes | .mk p _ _ => p
/-- `GetFields` (Simulator.cpp:363-391). -/
def Obj.fields : Obj → Option (List Fld) | .mk _ f _ => f
/-- `GetContainers` (Simulator.cpp:363-391). -/
def Obj.ctns : Obj → Option (List (List Obj)) | .mk _ _ c => c

/-- `Store(container, writer)` (`Simulator.cpp:386`): a container of the library
(`include/Xsmp/Container.h:39`) is an `IContainer` and neither an `IPersist`, an `IComponent` nor an
`IComposite`, so that none of the three branches is taken. -/
def storeCtn (_ : List Obj) : Bytes := []

/-- `Store` (`Simulator.cpp:363-391`). -/
def Obj.store : Obj → Bytes
  | .mk p f c =>
    (match p with | some d => Kind.PERSIST.bytes ++ d | none => []) ++
    (match f with
     | some fs => Kind.COMPONENT.bytes ++ fs.flatMap (fun x => Kind.FIELD.bytes ++ x.store)
     | none => []) ++
    (match c with
     | some cs => Kind.COMPOSITE.bytes ++ cs.flatMap (fun x => Kind.CONTAINER.bytes ++ storeCtn x)
     | none => [])

/-- The fields of a component, each with its mark (`Simulator.cpp:437-445`). -/
def restoreFields : List Fld → Bytes → Option (List Fld × Bytes)
  | [], b => some ([], b)
  | f :: fs, b => do
    let b ← check .FIELD b
    let (f', b) ← f.restore b
    let (fs', b) ← restoreFields fs b
    pure (f' :: fs', b)

/-- `Restore(container, reader)` (`Simulator.cpp:452`): as `storeCtn`. -/
def restoreCtn (c : List Obj) (b : Bytes) : Option (List Obj × Bytes) := some (c, b)

/-- The containers of a composite (`Simulator.cpp:447-455`). -/
def restoreCtns : List (List Obj) → Bytes → Option (List (List Obj) × Bytes)
  | [], b => some ([], b)
  | c :: cs, b => do
    let b ← check .CONTAINER b
    let (c', b) ← restoreCtn c b
    let (cs', b) ← restoreCtns cs b
    pure (c' :: cs', b)

/-- `Restore` (`Simulator.cpp:432-456`). -/
def Obj.restore : Obj → Bytes → Option (Obj × Bytes)
  | .mk p f c, b => do
    let (p', b) ← match p with
      | some d => do
        let b ← check .PERSIST b
        let (d', b) ← read d.length b
        pure (some d', b)
      | none => pure (none, b)
    let (f', b) ← match f with
      | some fs => do
        let b ← check .COMPONENT b
        let (fs', b) ← restoreFields fs b
        pure (some fs', b)
      | none => pure (none, b)
    let (c', b) ← match c with
      | some cs => do
        let b ← check .COMPOSITE b
        let (cs', b) ← restoreCtns cs b
        pure (some cs', b)
      | none => pure (none, b)
    pure (.mk p' f' c', b)

/-- The simulator (`src/Xsmp/Simulator.h:48`): a composite, neither persistent nor a
component. -/
def simulator (ctns : List (List Obj)) : Obj := .mk none none (some ctns)

/-! ### Specification -/

mutual
/-- The same fields, with values that may differ. -/
def Fld.same : Fld → Fld → Prop
  | .simple st d, .simple st' d' => st = st' ∧ d.length = d'.length
  | .group st items, .group st' items' => st = st' ∧ sameAll items items'
  | _, _ => False
def sameAll : List Fld → List Fld → Prop
  | [], [] => True
  | f :: fs, g :: gs => f.same g ∧ sameAll fs gs
  | _, _ => False
end

mutual
/-- What a restored field should be: the stored value where it is part of the state, and what it is
now elsewhere. -/
def Fld.expect (stored now : Fld) : Fld :=
  match stored, now with
  | .simple _ d, .simple st d' => .simple st (if st then d else d')
  | .group _ items, .group st items' => .group st (if st then expectAll items items' else items')
  | _, now => now
def expectAll (stored now : List Fld) : List Fld :=
  match stored, now with
  | f :: fs, g :: gs => f.expect g :: expectAll fs gs
  | _, now => now
end

theorem read_append (d b : Bytes) (n : Nat) (h : n = d.length) : read n (d ++ b) = some (d, b) := by
  subst h; simp [read]

mutual
theorem Fld.roundtrip (f g : Fld) (h : f.same g) (b : Bytes) :
    g.restore (f.store ++ b) = some (f.expect g, b) := by
  cases f with
  | simple st d =>
    cases g with
    | simple st' d' =>
      simp only [Fld.same] at h
      obtain ⟨rfl, hl⟩ := h
      simp only [Fld.restore, Fld.store, Fld.expect]
      cases st with
      | true => simp [read_append d b d'.length hl.symm]
      | false => simp
    | group _ _ => simp [Fld.same] at h
  | group st items =>
    cases g with
    | simple _ _ => simp [Fld.same] at h
    | group st' items' =>
      simp only [Fld.same] at h
      obtain ⟨rfl, hl⟩ := h
      simp only [Fld.restore, Fld.store, Fld.expect]
      cases st with
      | true => simp [roundtripAll items items' hl b]
      | false => simp
theorem roundtripAll (fs gs : List Fld) (h : sameAll fs gs) (b : Bytes) :
    restoreAll gs (storeAll fs ++ b) = some (expectAll fs gs, b) := by
  cases fs with
  | nil =>
    cases gs with
    | nil => simp [restoreAll, storeAll, expectAll]
    | cons _ _ => simp [sameAll] at h
  | cons f fs =>
    cases gs with
    | nil => simp [sameAll] at h
    | cons g gs =>
      simp only [sameAll] at h
      simp only [restoreAll, storeAll, expectAll, List.append_assoc]
      rw [Fld.roundtrip f g h.1]
      simp only [Option.pure_def, Option.bind_eq_bind, Option.bind_some]
      rw [roundtripAll fs gs h.2]
      rfl
end

theorem check_bytes (k : Kind) (b : Bytes) : check k (k.bytes ++ b) = some b := by
  cases k <;> simp [check, read, Kind.bytes]

theorem fields_roundtrip (fs gs : List Fld) (h : sameAll fs gs) (b : Bytes) :
    restoreFields gs (fs.flatMap (fun x => Kind.FIELD.bytes ++ x.store) ++ b) =
      some (expectAll fs gs, b) := by
  induction fs generalizing gs with
  | nil =>
    cases gs with
    | nil => simp [restoreFields, expectAll]
    | cons _ _ => simp [sameAll] at h
  | cons f fs ih =>
    cases gs with
    | nil => simp [sameAll] at h
    | cons g gs =>
      simp only [sameAll] at h
      simp only [restoreFields, List.flatMap_cons, List.append_assoc, check_bytes,
        Option.pure_def, Option.bind_eq_bind, Option.bind_some, f.roundtrip g h.1, ih gs h.2,
        expectAll]

theorem ctns_roundtrip (cs ds : List (List Obj)) (h : cs.length = ds.length) (b : Bytes) :
    restoreCtns ds (cs.flatMap (fun x => Kind.CONTAINER.bytes ++ storeCtn x) ++ b) =
      some (ds, b) := by
  induction cs generalizing ds with
  | nil =>
    cases ds with
    | nil => simp [restoreCtns]
    | cons _ _ => simp at h
  | cons c cs ih =>
    cases ds with
    | nil => simp at h
    | cons d ds =>
      simp only [restoreCtns, List.flatMap_cons, List.append_assoc, check_bytes, storeCtn,
        Option.pure_def, Option.bind_eq_bind, Option.bind_some, restoreCtn, List.nil_append]
      have := ih ds (by simpa using h)
      simp only [storeCtn] at this
      rw [this]
      rfl

/-- The same object (at the top), in another state. -/
def Obj.same : Obj → Obj → Prop
  | .mk p f c, .mk p' f' c' =>
    p.map List.length = p'.map List.length ∧
    (match f, f' with | some fs, some gs => sameAll fs gs | none, none => True | _, _ => False) ∧
    c.map List.length = c'.map List.length

/-- C30 (part): storing an object and restoring it later gives it back its own persistent data and
the value of each of its state fields, at any depth of arrays and structures; transient fields keep
their present value. Missing: everything inside its containers is neither stored nor restored
(`C30_fails`). -/
theorem C30_partial (o now : Obj) (h : o.same now) (b : Bytes) :
    now.restore (o.store ++ b) =
      some (.mk o.persist
        (match o.fields, now.fields with
         | some fs, some gs => some (expectAll fs gs)
         | _, _ => none) now.ctns, b) := by
  obtain ⟨p, f, c⟩ := o
  obtain ⟨p', f', c'⟩ := now
  obtain ⟨h1, h2, h3⟩ := h
  simp only [Obj.restore, Obj.store, Obj.persist, Obj.fields, Obj.ctns]
  cases p with
  | none =>
    cases p' with
    | some _ => simp at h1
    | none =>
      cases f with
      | none =>
        cases f' with
        | some _ => simp at h2
        | none =>
          cases c with
          | none => cases c' with
            | some _ => simp at h3
            | none => simp
          | some cs => cases c' with
            | none => simp at h3
            | some ds =>
              simp [check_bytes, ctns_roundtrip cs ds (by simpa using h3)]
      | some fs =>
        cases f' with
        | none => simp at h2
        | some gs =>
          cases c with
          | none => cases c' with
            | some _ => simp at h3
            | none => simp [check_bytes, fields_roundtrip fs gs h2]
          | some cs => cases c' with
            | none => simp at h3
            | some ds =>
              simp [check_bytes, fields_roundtrip fs gs h2,
                ctns_roundtrip cs ds (by simpa using h3)]
  | some d =>
    cases p' with
    | none => simp at h1
    | some d' =>
      have hd : d'.length = d.length := by simpa using h1.symm
      cases f with
      | none =>
        cases f' with
        | some _ => simp at h2
        | none =>
          cases c with
          | none => cases c' with
            | some _ => simp at h3
            | none => simp [check_bytes, read_append _ _ _ hd]
          | some cs => cases c' with
            | none => simp at h3
            | some ds =>
              simp [check_bytes, read_append _ _ _ hd, ctns_roundtrip cs ds (by simpa using h3)]
      | some fs =>
        cases f' with
        | none => simp at h2
        | some gs =>
          cases c with
          | none => cases c' with
            | some _ => simp at h3
            | none => simp [check_bytes, read_append _ _ _ hd, fields_roundtrip fs gs h2]
          | some cs => cases c' with
            | none => simp at h3
            | some ds =>
              simp [check_bytes, read_append _ _ _ hd, fields_roundtrip fs gs h2,
                ctns_roundtrip cs ds (by simpa using h3)]

/-- A model with a persistent counter, a state field and a transient field. -/
def model (x y z : UInt8) : Obj :=
  .mk (some [x]) (some [.group true [.simple true [y, 0], .simple false [z]]]) (some [[]])

example : (model 1 2 3).same (model 7 8 9) ∧
    (match (model 7 8 9).restore (model 1 2 3).store with
     | some (o, []) => o.persist = some [1]
     | _ => False) := by
  refine ⟨?_, ?_⟩
  · simp [model, Obj.same, Fld.same, sameAll]
  · rw [show (model 1 2 3).store = (model 1 2 3).store ++ [] by simp,
      C30_partial _ _ (by simp [model, Obj.same, Fld.same, sameAll])]
    rfl

/-- C30 is false of the simulator: whatever the components were at `Store`, `Restore` leaves every
component as it is. In particular a model whose state was stored is not restored. -/
theorem C30_fails :
    (∀ (stored now : List (List Obj)), stored.length = now.length →
      (simulator now).restore (simulator stored).store = some (simulator now, [])) ∧
    ∃ stored now : List (List Obj), stored ≠ now ∧
      (simulator now).restore (simulator stored).store = some (simulator now, []) := by
  have key : ∀ (stored now : List (List Obj)), stored.length = now.length →
      (simulator now).restore (simulator stored).store = some (simulator now, []) := by
    intro stored now h
    have := C30_partial (simulator stored) (simulator now)
      (by simp [simulator, Obj.same, h]) []
    rw [List.append_nil] at this
    exact this
  refine ⟨key, [[], [model 1 2 3]], [[], [model 7 8 9]], ?_, key _ _ rfl⟩
  simp [model]

theorem check_other (k k' : Kind) (h : k ≠ k') (b : Bytes) : check k (k'.bytes ++ b) = none := by
  cases k <;> cases k' <;> first | exact absurd rfl h | simp [check, read, Kind.bytes]

theorem check_short (k : Kind) : check k [] = none := by simp [check, read]

/-- Which parts an object writes: its own data, its fields, its containers. -/
def Obj.parts (o : Obj) : Bool × Bool × Bool :=
  (o.persist.isSome, o.fields.isSome, o.ctns.isSome)

/-- C30: a file is refused by an object that expects a part which the stored object did not have;
the marks in the file tell the parts from one another. -/
theorem C30_parts (o now : Obj) :
    ((now.parts.1 = true ∧ o.parts.1 = false) → now.restore o.store = none) ∧
    ((now.parts.1 = false ∧ now.parts.2.1 = true ∧ (o.parts.1 = true ∨ o.parts.2.1 = false)) →
      now.restore o.store = none) ∧
    ((now.parts.1 = false ∧ now.parts.2.1 = false ∧ now.parts.2.2 = true ∧
        (o.parts.1 = true ∨ o.parts.2.1 = true ∨ o.parts.2.2 = false)) →
      now.restore o.store = none) := by
  obtain ⟨p, f, c⟩ := o
  obtain ⟨p', f', c'⟩ := now
  have e := fun k k' h b => check_other k k' h b
  refine ⟨?_, ?_, ?_⟩ <;>
    cases p <;> cases f <;> cases c <;> cases p' <;> cases f' <;> cases c' <;>
    simp [Obj.parts, Obj.persist, Obj.fields, Obj.ctns, Obj.store, Obj.restore, check_short, e]

/-- C30: a component with more fields than the stored one refuses the file, whatever follows. -/
theorem C30_fields (d : Option Bytes) (fs gs more : List Fld) (c c' : Option (List (List Obj)))
    (h : sameAll fs gs) (hm : more ≠ []) :
    (Obj.mk d (some (gs ++ more)) c').restore (Obj.mk d (some fs) c).store = none := by
  have key : ∀ (b : Bytes), check .FIELD b = none →
      restoreFields (gs ++ more) (fs.flatMap (fun x => Kind.FIELD.bytes ++ x.store) ++ b) = none := by
    intro b hb
    induction fs generalizing gs with
    | nil =>
      cases gs with
      | nil =>
        cases more with
        | nil => exact absurd rfl hm
        | cons m more => simp [restoreFields, hb]
      | cons _ _ => simp [sameAll] at h
    | cons f fs ih =>
      cases gs with
      | nil => simp [sameAll] at h
      | cons g gs =>
        simp only [sameAll] at h
        simp only [restoreFields, List.cons_append, List.flatMap_cons, List.append_assoc,
          check_bytes, Option.pure_def, Option.bind_eq_bind, Option.bind_some,
          f.roundtrip g h.1, ih gs h.2, Option.bind_none]
  have hc : check .FIELD (match c with
     | some cs => Kind.COMPOSITE.bytes ++ cs.flatMap (fun x => Kind.CONTAINER.bytes ++ storeCtn x)
     | none => []) = none := by
    cases c with
    | none => exact check_short _
    | some cs => exact check_other _ _ (by decide) _
  have := key _ hc
  cases d with
  | none =>
    simp only [Obj.restore, Obj.store, List.nil_append, List.append_assoc, check_bytes,
      Option.pure_def, Option.bind_eq_bind, Option.bind_some, this, Option.bind_none]
  | some d =>
    simp only [Obj.restore, Obj.store, List.append_assoc, check_bytes,
      read_append d _ d.length rfl,
      Option.pure_def, Option.bind_eq_bind, Option.bind_some, this, Option.bind_none]

example : sameAll [.simple true [1]] [.simple true [2]] := by simp [sameAll, Fld.same]

/-- A file written for a tree with fewer containers is refused. -/
theorem C30_refused (stored now : List (List Obj)) (h : stored.length < now.length) :
    (simulator now).restore (simulator stored).store = none := by
  have key : ∀ (cs ds : List (List Obj)), cs.length < ds.length →
      restoreCtns ds (cs.flatMap (fun x => Kind.CONTAINER.bytes ++ storeCtn x)) = none := by
    intro cs
    induction cs with
    | nil =>
      intro ds h
      cases ds with
      | nil => simp at h
      | cons d ds => simp [restoreCtns, check, read]
    | cons c cs ih =>
      intro ds h
      cases ds with
      | nil => simp at h
      | cons d ds =>
        have := ih ds (by simpa using h)
        simp only [storeCtn] at this
        simp [restoreCtns, check_bytes, storeCtn, restoreCtn] at this ⊢
        simp [this]
  simp [simulator, Obj.restore, Obj.store, check_bytes, key stored now h]

end Verif.Sim.Bp
