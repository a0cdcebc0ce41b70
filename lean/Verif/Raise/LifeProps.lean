import Verif.Raise.Life
import Verif.Raise.ObjectsProps

/-! Property C128: after an exception of a publication, a type registry or the constructor of a
component, which objects exist, and whether the sender of the exception is one of them. -/
namespace Verif.Raise.Life
open Verif.Path (Str checkName)
open Verif.Pub (Uuid primUuid voidUuid Registry)
open Verif.Mem (Types TDef FDef Err PTree itemName simpleItem)

/-! ### Specification -/

/-- New memory is not that of an object that exists. -/
def Fresh (m : Heap) : Prop := ∀ a ∈ m.alive, a < m.next

/-- The objects of a published field: the fields, and for a structure the collection that holds its
fields. -/
def objects : PTree → Nat
  | .simple .. => 1
  | .sarray .. => 1
  | .array ts _ => 1 + (ts.map objects).sum
  | .struct _ ts _ => 2 + (ts.map objects).sum

/-- Nothing can be published under this name, or with this type, whatever the rest. -/
def RefusedAtOnce (T : Types) (name : Option Str) (u : Uuid) : Err → Prop
  | .typeNotRegistered => T u = none
  | .invalidFieldType => ∃ l, T u = some (.simple l) ∧ l.kind = .None
  | .invalidObjectName => checkName name = .invalidObjectName
  | _ => False

/-- The exceptions about the type an array or a class refers to: `TypeNotRegistered` and
`IncompatibleType`. -/
def fromNewType : YEx → Bool
  | .notRegistered _ | .incompatible _ => true
  | _ => false

/-! ### Lemmas -/

/-- `ps` are the objects made between two heaps. -/
def Made (m : Heap) (ps : List Addr) (m' : Heap) : Prop :=
  ps = List.range' m.next ps.length ∧ m'.next = m.next + ps.length ∧ m'.alive = ps.reverse ++ m.alive

/-- What holds of every outcome of a call that begins in `m`. -/
def Good (m : Heap) (S : Addr → Prop) : Out → Prop
  | .made ps m' => Made m ps m'
  | .raised _ s m' => m'.alive = m.alive ∧ m.next ≤ m'.next ∧ (S s ∨ m.next ≤ s)
  | .overflow => True

theorem Made.refl (m : Heap) : Made m [] m := ⟨rfl, by simp, by simp⟩

theorem Made.new (m : Heap) : Made m [m.next] m.new := ⟨rfl, rfl, rfl⟩

theorem Made.trans {m m' m'' : Heap} {ps qs : List Addr} (h : Made m ps m') (g : Made m' qs m'') :
    Made m (ps ++ qs) m'' := by
  obtain ⟨h1, h2, h3⟩ := h
  obtain ⟨g1, g2, g3⟩ := g
  refine ⟨?_, ?_, ?_⟩
  · rw [List.length_append, ← List.range'_append_1, ← h1, ← h2, ← g1]
  · rw [g2, h2, List.length_append, Nat.add_assoc]
  · rw [g3, h3, List.reverse_append, List.append_assoc]

theorem Made.range {m m' : Heap} {ps : List Addr} (h : Made m ps m') {a : Addr} (ha : a ∈ ps) :
    m.next ≤ a ∧ a < m'.next := by
  rw [h.1] at ha
  rw [h.2.1]
  exact List.mem_range'_1.1 ha

theorem Made.fresh {m m' : Heap} {ps : List Addr} (h : Made m ps m') (f : Fresh m) : Fresh m' := by
  intro a ha
  rw [h.2.2] at ha
  rcases List.mem_append.1 ha with ha | ha
  · exact (h.range (List.mem_reverse.1 ha)).2
  · rw [h.2.1]
    exact Nat.lt_of_lt_of_le (f a ha) (Nat.le_add_right _ _)

/-- Destroying what was made gives back the objects there were. -/
theorem Made.free {m m' h : Heap} {ps : List Addr} (f : Fresh m) (g : Made m ps m')
    (e : h.alive = m'.alive) : (h.free ps).alive = m.alive := by
  unfold Heap.free
  dsimp only
  rw [e, g.2.2, List.filter_append]
  have h1 : ps.reverse.filter (fun a => decide (a ∉ ps)) = [] := by
    rw [List.filter_eq_nil_iff]
    intro a ha
    simpa using ha
  have h2 : m.alive.filter (fun a => decide (a ∉ ps)) = m.alive := by
    rw [List.filter_eq_self]
    intro a ha
    rw [decide_eq_true_iff]
    intro hp
    exact absurd (f a ha) (Nat.not_lt.2 (g.range hp).1)
  rw [h1, h2, List.nil_append]

theorem Made.le {m m' : Heap} {ps : List Addr} (h : Made m ps m') : m.next ≤ m'.next := by
  rw [h.2.1]; exact Nat.le_add_right _ _

/-- An object that is under construction while the rest goes on. -/
theorem Good.under {m m' : Heap} {own : List Addr} {S S' : Addr → Prop} {o : Out} (f : Fresh m)
    (g : Made m own m') (h : Good m' S' o) (hs : ∀ s, S' s → S s ∨ m.next ≤ s) :
    Good m S (under own o) := by
  cases o with
  | made ps h' => exact g.trans h
  | raised e s h' =>
    obtain ⟨h1, h2, h3⟩ := h
    refine ⟨g.free f h1, Nat.le_trans g.le h2, ?_⟩
    rcases h3 with h3 | h3
    · exact hs s h3
    · exact .inr (Nat.le_trans g.le h3)
  | overflow => exact trivial

theorem items_good {make : Nat → Heap → Out} {p : Addr} (m : Heap) (f : Fresh m)
    (hm : ∀ i h, Fresh h → Good h (· = p) (make i h)) (is : List Nat) :
    ∀ (done : List Addr) (m' : Heap), Made m done m' → Good m (· = p) (items make done m' is) := by
  induction is with
  | nil => intro done m' h; exact h
  | cons i is ih =>
    intro done m' h
    unfold items
    have g := hm i m' (h.fresh f)
    cases hmk : make i m' with
    | made ps m'' =>
      rw [hmk] at g
      exact ih _ _ (h.trans g)
    | raised e s m'' =>
      rw [hmk] at g
      refine ⟨h.free f g.1, Nat.le_trans h.le g.2.1, ?_⟩
      rcases g.2.2 with g | g
      · exact .inl g
      · exact .inr (Nat.le_trans h.le g)
    | overflow => exact trivial

theorem members_good {make : FDef → Heap → Out} {p coll : Addr} (m : Heap) (f : Fresh m)
    (hm : ∀ fd h, Fresh h → Good h (· = p) (make fd h)) (fds : List FDef) :
    ∀ (names : List Str) (done : List Addr) (m' : Heap), Made m done m' →
      Good m (fun s => s = p ∨ s = coll) (members make coll names done m' fds) := by
  induction fds with
  | nil => intro names done m' h; exact h
  | cons fd fds ih =>
    intro names done m' h
    unfold members
    have g := hm fd m' (h.fresh f)
    cases hmk : make fd m' with
    | made ps m'' =>
      rw [hmk] at g
      dsimp only
      split
      · exact ⟨h.free f (g.free (h.fresh f) rfl), Nat.le_trans h.le g.le, .inl (.inr rfl)⟩
      · exact ih _ _ _ (h.trans g)
    | raised e s m'' =>
      rw [hmk] at g
      refine ⟨h.free f g.1, Nat.le_trans h.le g.2.1, ?_⟩
      rcases g.2.2 with g | g
      · exact .inl (.inl g)
      · exact .inr (Nat.le_trans h.le g)
    | overflow => exact trivial

theorem create_good (T : Types) (n : Nat) :
    ∀ (parent : Addr) (name : Option Str) (u : Uuid) (m : Heap), Fresh m →
      Good m (· = parent) (create T n parent name u m) := by
  induction n with
  | zero => intro parent name u m f; exact trivial
  | succ n ih =>
    intro parent name u m f
    have step : ∀ o, Good m.new (fun s => s = parent ∨ s = m.next) o →
        Good m (· = parent) (under [m.next] o) := by
      intro o h
      refine Good.under f (Made.new m) h ?_
      intro s hs
      rcases hs with hs | hs
      · exact .inl hs
      · exact .inr (Nat.le_of_eq hs.symm)
    have raise : ∀ e s, (s = parent ∨ s = m.next) →
        Good m.new (fun s => s = parent ∨ s = m.next) (.raised e s m.new) :=
      fun e s h => ⟨rfl, Nat.le_refl _, .inl h⟩
    unfold create
    cases hT : T u with
    | none => exact ⟨rfl, Nat.le_refl _, .inl rfl⟩
    | some t =>
      cases t with
      | simple l =>
        dsimp only
        split
        · exact ⟨rfl, Nat.le_refl _, .inl rfl⟩
        · apply step
          cases checkName name with
          | invalidObjectName => exact raise _ _ (.inl rfl)
          | ok r =>
            dsimp only
            split
            · exact raise _ _ (.inr rfl)
            · exact Made.refl _
      | array item itemSize count simple =>
        dsimp only
        apply step
        cases checkName name with
        | invalidObjectName => exact raise _ _ (.inl rfl)
        | ok r =>
          dsimp only
          split
          · exact raise _ _ (.inr rfl)
          · cases simpleItem T simple item with
            | some l => exact Made.refl _
            | none =>
              have h := items_good (p := m.next) m.new ((Made.new m).fresh f)
                (make := fun i h => create T n m.next (some (itemName i)) item h)
                (fun i h hf => ih m.next _ item h hf) (List.range count) [] m.new (Made.refl _)
              revert h
              dsimp only
              cases items (fun i h => create T n m.next (some (itemName i)) item h) [] m.new
                (List.range count) with
              | made ps h' => exact id
              | overflow => exact id
              | raised e s h' => exact fun h => ⟨h.1, h.2.1, h.2.2.imp_left .inr⟩
      | struct fds =>
        dsimp only
        apply step
        cases checkName name with
        | invalidObjectName => exact raise _ _ (.inl rfl)
        | ok r =>
          dsimp only
          have f' := (Made.new m).fresh f
          refine Good.under f' (Made.new m.new)
            (members_good (p := m.next) m.new.new ((Made.new m.new).fresh f')
              (fun fd h hf => ih m.next _ _ h hf) fds [] [] m.new.new (Made.refl _)) ?_
          intro s hs
          rcases hs with hs | hs
          · exact .inl (.inr hs)
          · exact .inr (Nat.le_of_eq hs.symm)
/-- A sender that existed before the call is the parent, and then the call was refused for its own
name or type. -/
theorem create_at_once (T : Types) (n : Nat) (parent : Addr) (name : Option Str) (u : Uuid)
    (m : Heap) (f : Fresh m) (hp : parent < m.next) {e : Err} {m' : Heap}
    (h : create T n parent name u m = .raised e parent m') : RefusedAtOnce T name u e := by
  cases n with
  | zero => exact nomatch h
  | succ n =>
    have hne : parent ≠ m.next := Nat.ne_of_lt hp
    have inner : ∀ (o : Out), Good m.new (· = m.next) o → under [m.next] o ≠ .raised e parent m' := by
      intro o g hu
      cases o with
      | made ps h' => exact nomatch hu
      | overflow => exact nomatch hu
      | raised e' s h' =>
        injection hu with _ hs _
        rcases g.2.2 with g | g
        · exact hne (hs ▸ g)
        · rw [hs] at g
          exact absurd hp (Nat.not_lt.2 (Nat.le_trans (Nat.le_succ _) g))
    unfold create at h
    revert h
    cases hT : T u with
    | none =>
      intro h
      injection h with he _ _
      subst he
      exact hT
    | some t =>
      cases t with
      | simple l =>
        dsimp only
        split
        · intro h
          injection h with he _ _
          subst he
          exact ⟨l, hT, by assumption⟩
        · cases hn : checkName name with
          | invalidObjectName =>
            intro h
            injection h with he _ _
            subst he
            exact hn
          | ok r =>
            dsimp only
            split
            · intro h
              injection h with _ hs _
              exact absurd hs.symm hne
            · intro h; exact nomatch h
      | array item itemSize count simple =>
        dsimp only
        cases hn : checkName name with
        | invalidObjectName =>
          intro h
          injection h with he _ _
          subst he
          exact hn
        | ok r =>
          dsimp only
          split
          · intro h
            injection h with _ hs _
            exact absurd hs.symm hne
          · cases simpleItem T simple item with
            | some l => intro h; exact nomatch h
            | none =>
              intro h
              exact absurd h (inner _ (items_good (p := m.next) m.new ((Made.new m).fresh f)
                (fun i h hf => create_good T n m.next _ item h hf) (List.range count) [] m.new
                (Made.refl _)))
      | struct fds =>
        dsimp only
        cases hn : checkName name with
        | invalidObjectName =>
          intro h
          injection h with he _ _
          subst he
          exact hn
        | ok r =>
          intro h
          have f' := (Made.new m).fresh f
          refine absurd h (inner _ (Good.under f' (Made.new m.new)
            (members_good (p := m.next) m.new.new ((Made.new m.new).fresh f')
              (fun fd h hf => create_good T n m.next _ _ h hf) fds [] [] m.new.new (Made.refl _)) ?_))
          intro s hs
          rcases hs with hs | hs
          · exact .inl hs
          · exact .inr (Nat.le_of_eq hs.symm)

/-- Forgetting the memory, an outcome is that of the model of fields and addresses. -/
def Same : Out → Except Err PTree → Prop
  | .made ps _, .ok t => ps.length = objects t
  | .raised e _ _, .error e' => e = e' ∧ e ≠ .overflow
  | .overflow, .error e => e = .overflow
  | _, _ => False

theorem items_same {make : Nat → Heap → Out} {f : Nat → Except Err PTree}
    (h : ∀ i m, Same (make i m) (f i)) (is : List Nat) :
    ∀ (done : List Addr) (m : Heap),
      match items make done m is, Mem.mapE f is with
      | .made ps _, .ok ts => ps.length = done.length + (ts.map objects).sum
      | .raised e _ _, .error e' => e = e' ∧ e ≠ .overflow
      | .overflow, .error e => e = .overflow
      | _, _ => False := by
  induction is with
  | nil => intro done m; simp [items, Mem.mapE]
  | cons i is ih =>
    intro done m
    have hi := h i m
    unfold items Mem.mapE
    cases hm : make i m <;> cases hf : f i <;> rw [hm, hf] at hi <;> dsimp only [Same] at hi ⊢
    · rename_i ps m' t
      have := ih (done ++ ps) m'
      revert this
      cases items make (done ++ ps) m' is <;> cases Mem.mapE f is <;> dsimp only <;> intro h
      · exact h
      · rw [h, List.length_append, hi, List.map_cons, List.sum_cons, Nat.add_assoc]
      · exact h
      · exact h
      · exact h
      · exact h
    · exact hi
    · exact hi

theorem members_same {make : FDef → Heap → Out} {f : FDef → Except Err PTree} {coll : Addr}
    (h : ∀ fd m, Same (make fd m) (f fd)) (fds : List FDef) :
    ∀ (names : List Str) (done : List Addr) (m : Heap),
      match members make coll names done m fds, Mem.createFields f names fds with
      | .made ps _, .ok ts => ps.length = done.length + (ts.map objects).sum
      | .raised e _ _, .error e' => e = e' ∧ e ≠ .overflow
      | .overflow, .error e => e = .overflow
      | _, _ => False := by
  induction fds with
  | nil => intro names done m; simp [members, Mem.createFields]
  | cons fd fds ih =>
    intro names done m
    have hi := h fd m
    unfold members Mem.createFields
    cases hm : make fd m <;> cases hf : f fd <;> rw [hm, hf] at hi <;> dsimp only [Same] at hi ⊢
    · rename_i ps m' t
      by_cases hn : fd.name ∈ names
      · rw [if_pos hn, if_pos hn]
        exact ⟨rfl, nofun⟩
      · rw [if_neg hn, if_neg hn]
        have := ih (fd.name :: names) (done ++ ps) m'
        revert this
        cases members make coll (fd.name :: names) (done ++ ps) m' fds <;>
          cases Mem.createFields f (fd.name :: names) fds <;> dsimp only <;> intro h
        · exact h
        · rw [h, List.length_append, hi, List.map_cons, List.sum_cons, Nat.add_assoc]
        · exact h
        · exact h
        · exact h
        · exact h
    · exact hi
    · exact hi

theorem create_same (T : Types) (n : Nat) :
    ∀ (parent : Addr) (name : Option Str) (u : Uuid) (m : Heap) (addr : Int) (fl : Mem.Flags),
      Same (create T n parent name u m) (Mem.create T n name u addr fl) := by
  induction n with
  | zero => intro parent name u m addr fl; rfl
  | succ n ih =>
    intro parent name u m addr fl
    unfold create Mem.create
    cases hT : T u with
    | none => exact ⟨rfl, nofun⟩
    | some t =>
      cases t with
      | simple l =>
        dsimp only
        split
        · exact ⟨rfl, nofun⟩
        · cases checkName name with
          | invalidObjectName => exact ⟨rfl, nofun⟩
          | ok r =>
            dsimp only
            split
            · exact ⟨rfl, nofun⟩
            · simp [Same, under, objects]
      | array item itemSize count simple =>
        dsimp only
        cases checkName name with
        | invalidObjectName => exact ⟨rfl, nofun⟩
        | ok r =>
          dsimp only
          split
          · exact ⟨rfl, nofun⟩
          · cases simpleItem T simple item with
            | some l => simp [Same, under, objects]
            | none =>
              have h := items_same (make := fun i h => create T n m.next (some (itemName i)) item h)
                (f := fun (i : Nat) => Mem.create T n (some (itemName i)) item (addr + i * itemSize) fl)
                (fun i h => ih m.next _ item h _ fl) (List.range count) [] m.new
              revert h
              dsimp only
              cases items (fun i h => create T n m.next (some (itemName i)) item h) [] m.new
                  (List.range count) <;>
                cases Mem.mapE (fun (i : Nat) =>
                  Mem.create T n (some (itemName i)) item (addr + i * itemSize) fl)
                  (List.range count) <;> dsimp only [Same, under] <;> intro h
              · exact h
              · rw [List.length_append, h, objects]; simp
              · exact h
              · exact h
              · exact h
              · exact h
      | struct fds =>
        dsimp only
        cases checkName name with
        | invalidObjectName => exact ⟨rfl, nofun⟩
        | ok r =>
          dsimp only
          have h := members_same (coll := m.new.next)
            (make := fun fd h => create T n m.next (some fd.name) fd.uuid h)
            (f := fun fd => Mem.create T n (some fd.name) fd.uuid (addr + fd.offset)
              ⟨fd.flags.view, fd.flags.state, fd.flags.input || fl.input, fd.flags.output || fl.output⟩)
            (fun fd h => ih m.next _ fd.uuid h _ _) fds [] [] m.new.new
          revert h
          cases members (fun fd h => create T n m.next (some fd.name) fd.uuid h) m.new.next [] []
              m.new.new fds <;>
            cases Mem.createFields (fun fd => Mem.create T n (some fd.name) fd.uuid (addr + fd.offset)
              ⟨fd.flags.view, fd.flags.state, fd.flags.input || fl.input, fd.flags.output || fl.output⟩)
              [] fds <;> dsimp only [Same, under] <;> intro h
          · exact h
          · rw [List.length_append, List.length_append, h, objects]; simp; omega
          · exact h
          · exact h
          · exact h
          · exact h

/-! ### Types: lemmas -/

/-- The registry and the memory of its types agree. -/
structure Ok (w : Reg) : Prop where
  fresh : Fresh w.heap
  self : w.self ∈ w.heap.alive
  places : ∀ x ∈ w.places, x.2 ∈ w.heap.alive
  same : w.reg.map (·.uuid) = w.places.map (·.1)

theorem new_free (m : Heap) (f : Fresh m) : (m.new.free [m.next]).alive = m.alive :=
  (Made.new m).free f rfl

theorem modify_uuids (R : Registry) (u : Uuid) (t : Pub.TypeDef) :
    (Pub.modify R u t).map (·.uuid) = R.map (·.uuid) := by
  unfold Pub.modify
  rw [List.map_map]
  apply List.map_congr_left
  intro e _
  show (if e.uuid = u then { e with type := t } else e).uuid = e.uuid
  split <;> rfl

/-- What a new type may raise. -/
theorem named_spec (reg : Addr) (name : Option Str) (rest : Option Ex) :
    (named reg name rest).map (·.1) = namedRaises name (rest.map (·.1)) := by
  unfold named namedRaises
  cases checkName name <;> rfl

theorem array_spec (R : Registry) (item : Uuid) (p : Addr) :
    (array R item p).map (·.1) = arrayRaises R item := by
  unfold array arrayRaises
  cases Pub.getType R item with
  | none => rfl
  | some t => dsimp only; split <;> rfl

theorem cls_spec (R : Registry) (u base : Uuid) (p : Addr) :
    (cls R u base p).map (·.1) = classRaises R u base := by
  unfold cls classRaises
  split
  · rfl
  · split
    · rfl
    · cases Pub.getType R base with
      | none => rfl
      | some t => cases t <;> rfl

theorem add_spec (w : Reg) (o : Pub.Op) (u : Uuid) (name : Option Str) (ctor : Addr → Option Ex) :
    (w.add o u name ctor).2.map (·.1) =
      addTypeRaises w.reg u name ((ctor w.heap.next).map (·.1)) := by
  unfold Reg.add addTypeRaises
  cases w.reg.find? (fun e => e.uuid == u) with
  | some e => rfl
  | none =>
    dsimp only
    cases ctor w.heap.next <;> rfl

theorem step_spec (w : Reg) (o : Pub.Op) : (w.step o).2.map (·.1) = typeRaises w.reg o := by
  cases o with
  | addFloat u n _ _ _ _ k =>
    unfold Reg.step typeRaises
    dsimp only
    split
    · rw [add_spec, named_spec]; rfl
    · rfl
  | addInteger u n _ _ k =>
    unfold Reg.step typeRaises
    dsimp only
    split
    · rw [add_spec, named_spec]; rfl
    · rfl
  | addEnumeration u n size =>
    unfold Reg.step typeRaises
    dsimp only
    rw [add_spec]
    cases Pub.enumKind size with
    | none => rfl
    | some k => dsimp only; rw [named_spec]; rfl
  | addArray u n item _ _ _ =>
    unfold Reg.step typeRaises
    dsimp only
    rw [add_spec, named_spec, array_spec]
  | addString u n _ =>
    unfold Reg.step typeRaises
    dsimp only
    rw [add_spec, named_spec]; rfl
  | addStructure u n =>
    unfold Reg.step typeRaises
    dsimp only
    rw [add_spec, named_spec]; rfl
  | addClass u n base =>
    unfold Reg.step typeRaises
    dsimp only
    rw [add_spec, named_spec, cls_spec]
  | addLiteral u n v =>
    unfold Reg.step typeRaises
    dsimp only
    cases Pub.getType w.reg u with
    | none => rfl
    | some t =>
      cases t with
      | enumeration k lits =>
        dsimp only
        cases lits.find? (fun l => l.1 == v) <;> rfl
      | _ => rfl
  | addField u f => rfl

theorem addType_uuids {R : Registry} {u : Uuid} {n : Option Str} {c : Pub.Ctor}
    (h : (Pub.addType R u n c).2 = none) :
    (Pub.addType R u n c).1.map (·.uuid) = R.map (·.uuid) ++ [u] := by
  unfold Pub.addType at h ⊢
  cases hg : Pub.getType R u with
  | some t => rw [hg] at h; exact nomatch h
  | none =>
    rw [hg] at h
    cases c with
    | error e => exact nomatch h
    | ok t => simp

/-- A call that ends normally adds the type it names, if it names one, to the registry. -/
theorem step_uuids {R : Registry} {o : Pub.Op} (h : (Pub.step R o).2 = none) :
    (Pub.step R o).1.map (·.uuid) = R.map (·.uuid) ++ ((newType o).map (·.1)).toList := by
  cases o with
  | addFloat u n _ _ _ _ k =>
    unfold Pub.step at h ⊢
    dsimp only at h ⊢
    split at h
    · rw [if_pos (by assumption)]
      exact addType_uuids h
    · exact nomatch h
  | addInteger u n _ _ k =>
    unfold Pub.step at h ⊢
    dsimp only at h ⊢
    split at h
    · rw [if_pos (by assumption)]
      exact addType_uuids h
    · exact nomatch h
  | addEnumeration u n size => exact addType_uuids h
  | addArray u n item _ _ _ => exact addType_uuids h
  | addString u n _ => exact addType_uuids h
  | addStructure u n => exact addType_uuids h
  | addClass u n base => exact addType_uuids h
  | addLiteral u n v =>
    simp only [newType, Option.map_none, Option.toList_none, List.append_nil]
    unfold Pub.step
    dsimp only
    cases Pub.getType R u with
    | none => rfl
    | some t =>
      cases t with
      | enumeration k lits =>
        dsimp only
        cases Pub.addLiteral lits n v with
        | ok l => exact modify_uuids _ _ _
        | error e => rfl
      | _ => rfl
  | addField u f =>
    simp only [newType, Option.map_none, Option.toList_none, List.append_nil]
    unfold Pub.step
    dsimp only
    cases Pub.getType R u with
    | none => rfl
    | some t =>
      cases t with
      | struct fs => exact modify_uuids _ _ _
      | cls b fs => exact modify_uuids _ _ _
      | _ => rfl

/-- What is known of the sender of an exception of a call that begins in `m`. -/
def Sent (m : Heap) (x : Ex) : Prop :=
  match x.2 with
  | none => ∃ n, x.1 = .primitive n .None
  | some a => match fromNewType x.1 with
    | true => m.next ≤ a
    | false => a ∈ m.alive

theorem named_sent {w : Reg} (h : Ok w) {name : Option Str} {rest : Option Ex} {x : Ex}
    (hr : ∀ y, rest = some y → Sent w.heap y) (hx : named w.self name rest = some x) :
    Sent w.heap x := by
  unfold named at hx
  cases hn : checkName name with
  | ok r => rw [hn] at hx; exact hr x hx
  | invalidObjectName =>
    rw [hn] at hx
    injection hx with hx
    subst hx
    exact h.self

theorem array_sent {m : Heap} {R : Registry} {item : Uuid} {x : Ex}
    (hx : array R item m.next = some x) : Sent m x := by
  unfold array at hx
  cases hn : Pub.getType R item with
  | none => rw [hn] at hx; injection hx with hx; subst hx; exact Nat.le_refl _
  | some t =>
    rw [hn] at hx
    dsimp only at hx
    split at hx
    · injection hx with hx; subst hx; exact Nat.le_refl _
    · exact nomatch hx

theorem cls_sent {m : Heap} {R : Registry} {u base : Uuid} {x : Ex}
    (hx : cls R u base m.next = some x) : Sent m x := by
  unfold cls at hx
  split at hx
  · exact nomatch hx
  · split at hx
    · injection hx with hx; subst hx; exact Nat.le_refl _
    · split at hx
      · injection hx with hx; subst hx; exact Nat.le_refl _
      · exact nomatch hx
      · injection hx with hx; subst hx; exact Nat.le_refl _

/-- What holds of the outcome of a call on the registry. -/
structure Done (w : Reg) (r : Reg × Option Ex) : Prop where
  self : r.1.self = w.self
  raised : ∀ x, r.2 = some x → r.1.heap.alive = w.heap.alive ∧ w.heap.next ≤ r.1.heap.next ∧
    r.1.reg = w.reg ∧ r.1.places = w.places ∧ Sent w.heap x

theorem add_done {w : Reg} (h : Ok w) {o : Pub.Op} {u : Uuid} {name : Option Str}
    {ctor : Addr → Option Ex} (hc : ∀ x, ctor w.heap.next = some x → Sent w.heap x) :
    Done w (w.add o u name ctor) := by
  unfold Reg.add
  cases w.reg.find? (fun e => e.uuid == u) with
  | some e =>
    refine ⟨rfl, fun x hx => ⟨rfl, Nat.le_refl _, rfl, rfl, ?_⟩⟩
    injection hx with hx
    subst hx
    exact h.self
  | none =>
    dsimp only
    cases hx : ctor w.heap.next with
    | some x =>
      refine ⟨rfl, fun y hy => ⟨new_free _ h.fresh, Nat.le_succ _, rfl, rfl, ?_⟩⟩
      injection hy with hy
      subst hy
      exact hc x hx
    | none => exact ⟨rfl, fun y hy => nomatch hy⟩

theorem addr_alive {w : Reg} (h : Ok w) {u : Uuid} {t : Pub.TypeDef}
    (hg : Pub.getType w.reg u = some t) : ∃ a, w.addr u = some a ∧ a ∈ w.heap.alive := by
  unfold Pub.getType at hg
  have hm : u ∈ w.places.map (·.1) := by
    rw [← h.same]
    cases hf : w.reg.find? (fun e => e.uuid == u) with
    | none => rw [hf] at hg; exact nomatch hg
    | some e =>
      have h1 := List.mem_of_find?_eq_some hf
      have h2 := List.find?_some hf
      exact List.mem_map.2 ⟨e, h1, by simpa using h2⟩
  obtain ⟨x, hx, hu⟩ := List.mem_map.1 hm
  unfold Reg.addr
  cases hf : w.places.find? (fun x => x.1 == u) with
  | none =>
    have := List.find?_eq_none.1 hf x hx
    exact absurd (by simpa using hu) this
  | some y => exact ⟨y.2, rfl, h.places y (List.mem_of_find?_eq_some hf)⟩

theorem step_done {w : Reg} (h : Ok w) (o : Pub.Op) : Done w (w.step o) := by
  have plain : ∀ (n : Option Str) (x : Ex), named w.self n none = some x → Sent w.heap x :=
    fun n x hx => named_sent h (by intro y hy; exact nomatch hy) hx
  have self : ∀ (y : YEx), fromNewType y = false → Done w (w, some (y, some w.self)) := by
    intro y hy
    refine ⟨rfl, fun x hx => ⟨rfl, Nat.le_refl _, rfl, rfl, ?_⟩⟩
    injection hx with hx
    subst hx
    show match fromNewType y with | true => _ | false => _
    rw [hy]
    exact h.self
  have quiet : ∀ R, Done w (⟨R, w.self, w.places, w.heap⟩, none) :=
    fun R => ⟨rfl, fun x hx => nomatch hx⟩
  unfold Reg.step
  cases o with
  | addFloat u n _ _ _ _ k =>
    dsimp only
    split
    · exact add_done h (fun x hx => plain n x hx)
    · exact self _ rfl
  | addInteger u n _ _ k =>
    dsimp only
    split
    · exact add_done h (fun x hx => plain n x hx)
    · exact self _ rfl
  | addEnumeration u n size =>
    apply add_done h
    intro x hx
    cases hk : Pub.enumKind size with
    | none => rw [hk] at hx; injection hx with hx; subst hx; exact ⟨_, rfl⟩
    | some k => rw [hk] at hx; exact plain n x hx
  | addArray u n item _ _ _ =>
    exact add_done h (fun x hx => named_sent h (fun y hy => array_sent hy) hx)
  | addString u n _ => exact add_done h (fun x hx => plain n x hx)
  | addStructure u n => exact add_done h (fun x hx => plain n x hx)
  | addClass u n base =>
    exact add_done h (fun x hx => named_sent h (fun y hy => cls_sent hy) hx)
  | addLiteral u n v =>
    dsimp only
    cases hg : Pub.getType w.reg u with
    | none => exact quiet _
    | some t =>
      cases t with
      | enumeration k lits =>
        dsimp only
        cases lits.find? (fun l => l.1 == v) with
        | none => exact quiet _
        | some l =>
          obtain ⟨a, ha, hal⟩ := addr_alive h hg
          refine ⟨rfl, fun x hx => ⟨rfl, Nat.le_refl _, rfl, rfl, ?_⟩⟩
          injection hx with hx
          subst hx
          rw [ha]
          exact hal
      | _ => exact quiet _
  | addField u f => exact quiet _

/-- A call that ends normally: one more object if the call names a new type. -/
theorem step_normal (w : Reg) (o : Pub.Op) (hn : (w.step o).2 = none) :
    (w.step o).1.reg = (Pub.step w.reg o).1 ∧
    match newType o with
    | some x => (w.step o).1.places = w.places ++ [(x.1, w.heap.next)] ∧ (w.step o).1.heap = w.heap.new
    | none => (w.step o).1.places = w.places ∧ (w.step o).1.heap = w.heap := by
  have add : ∀ (u : Uuid) (n : Option Str) (c : Addr → Option Ex), (w.add o u n c).2 = none →
      (w.add o u n c).1.reg = (Pub.step w.reg o).1 ∧
      (w.add o u n c).1.places = w.places ++ [(u, w.heap.next)] ∧
      (w.add o u n c).1.heap = w.heap.new := by
    intro u n c h
    unfold Reg.add at h ⊢
    cases hf : w.reg.find? (fun e => e.uuid == u) with
    | some e => rw [hf] at h; exact nomatch h
    | none =>
      rw [hf] at h
      dsimp only at h ⊢
      cases hc : c w.heap.next with
      | some x => rw [hc] at h; exact nomatch h
      | none => exact ⟨rfl, rfl, rfl⟩
  unfold Reg.step at hn ⊢
  cases o with
  | addFloat u n _ _ _ _ k =>
    dsimp only [newType] at hn ⊢
    split at hn
    · rw [if_pos (by assumption)]; exact add _ _ _ hn
    · exact nomatch hn
  | addInteger u n _ _ k =>
    dsimp only [newType] at hn ⊢
    split at hn
    · rw [if_pos (by assumption)]; exact add _ _ _ hn
    · exact nomatch hn
  | addEnumeration u n size => exact add _ _ _ hn
  | addArray u n item _ _ _ => exact add _ _ _ hn
  | addString u n _ => exact add _ _ _ hn
  | addStructure u n => exact add _ _ _ hn
  | addClass u n base => exact add _ _ _ hn
  | addLiteral u n v =>
    dsimp only [newType] at hn ⊢
    cases hg : Pub.getType w.reg u with
    | none => exact ⟨rfl, rfl, rfl⟩
    | some t =>
      rw [hg] at hn
      cases t with
      | enumeration k lits =>
        dsimp only at hn ⊢
        cases hl : lits.find? (fun l => l.1 == v) with
        | none => exact ⟨rfl, rfl, rfl⟩
        | some l => rw [hl] at hn; exact nomatch hn
      | _ => exact ⟨rfl, rfl, rfl⟩
  | addField u f => exact ⟨rfl, rfl, rfl⟩

theorem step_ok {w : Reg} (h : Ok w) (o : Pub.Op) : Ok (w.step o).1 := by
  have hd := step_done h o
  cases hs : (w.step o).2 with
  | some x =>
    obtain ⟨h1, h2, h3, h4, _⟩ := hd.raised x hs
    refine ⟨?_, ?_, ?_, ?_⟩
    · intro a ha
      rw [h1] at ha
      exact Nat.lt_of_lt_of_le (h.fresh a ha) h2
    · rw [hd.self, h1]; exact h.self
    · rw [h4, h1]; exact h.places
    · rw [h3, h4]; exact h.same
  | none =>
    obtain ⟨h1, h2⟩ := step_normal w o hs
    have hn : (Pub.step w.reg o).2 = none := by
      rw [← type_cls, ← step_spec, hs]; rfl
    have hu := step_uuids hn
    revert h2
    cases ht : newType o with
    | none =>
      intro h2
      rw [ht] at hu
      refine ⟨?_, ?_, ?_, ?_⟩
      · rw [h2.2]; exact h.fresh
      · rw [hd.self, h2.2]; exact h.self
      · rw [h2.1, h2.2]; exact h.places
      · rw [h1, hu, h2.1, h.same]; simp
    | some x =>
      intro h2
      rw [ht] at hu
      refine ⟨?_, ?_, ?_, ?_⟩
      · rw [h2.2]; exact (Made.new w.heap).fresh h.fresh
      · rw [hd.self, h2.2]; exact List.mem_cons_of_mem _ h.self
      · rw [h2.1, h2.2]
        intro y hy
        rcases List.mem_append.1 hy with hy | hy
        · exact List.mem_cons_of_mem _ (h.places y hy)
        · rw [List.mem_singleton.1 hy]; exact List.mem_cons_self
      · rw [h1, hu, h2.1, h.same]; simp

theorem init_ok : Ok Reg.init := by
  refine ⟨?_, ?_, ?_, ?_⟩
  · intro a ha; exact List.mem_range.1 ha
  · exact List.mem_range.2 (Nat.succ_pos _)
  · intro x hx
    have := (List.of_mem_zip (a := x.1) (b := x.2) hx).2
    have := List.mem_range'_1.1 this
    exact List.mem_range.2 (by rw [Nat.add_comm]; exact this.2)
  · show _ = (List.zip _ _).map Prod.fst
    rw [List.map_fst_zip]
    · rfl
    · rw [List.length_map, List.length_range']
      exact Nat.le_refl _

theorem run_ok (os : List Pub.Op) : ∀ w : Reg, Ok w → Ok (w.run os) := by
  induction os with
  | nil => intro w h; exact h
  | cons o os ih => intro w h; exact ih _ (step_ok h o)

/-! ### Components: lemmas -/

theorem fields_good {comp : Addr} {known : Uuid → Bool} (m : Heap) (f : Fresh m)
    (fs : List (Option Str × Uuid)) :
    ∀ (done : List Addr) (m' : Heap), Made m done m' →
      Good m (· = comp) (fields comp known done m' fs) := by
  induction fs with
  | nil => intro done m' h; exact h
  | cons x fs ih =>
    intro done m' h
    obtain ⟨name, u⟩ := x
    unfold fields
    cases checkName name with
    | invalidObjectName =>
      exact ⟨h.free f (new_free _ (h.fresh f)), Nat.le_trans h.le (Nat.le_succ _), .inl rfl⟩
    | ok r =>
      dsimp only
      split
      · exact ih _ _ (h.trans (Made.new m'))
      · exact ⟨h.free f (new_free _ (h.fresh f)), Nat.le_trans h.le (Nat.le_succ _), .inr h.le⟩

/-! ### The property -/

/-- C128, published fields. An exception of `PublishField` leaves exactly the objects that were
there before the call. If its sender still exists, it is the object whose publication it is, and then
the name or the type in the call is refused, or it is the collection of the fields of that
publication, and then that name is taken. Missing: the sender does not exist otherwise
(`C128_field_fails`). -/
theorem C128_field_partial (T : Types) (n : Nat) (parent coll : Addr) (names : List Str)
    (name : Option Str) (u : Uuid) (m : Heap) (f : Fresh m) (hp : parent ∈ m.alive)
    (hc : coll ∈ m.alive) {e : Err} {s : Addr} {m' : Heap}
    (h : publish T n parent coll names name u m = .raised e s m') :
    m'.alive = m.alive ∧
    (s ∈ m'.alive → (s = parent ∧ RefusedAtOnce T name u e) ∨
      (s = coll ∧ e = .duplicateName ∧ name.getD [] ∈ names)) ∧
    (RefusedAtOnce T name u e → s = parent) := by
  have g := create_good T n parent name u m f
  unfold publish at h
  cases hcr : create T n parent name u m with
  | made ps h' =>
    rw [hcr] at g h
    dsimp only at h
    split at h
    · injection h with h1 h2 h3
      subst h1; subst h2; subst h3
      exact ⟨g.free f rfl, fun _ => .inr ⟨rfl, rfl, by assumption⟩, fun hr => hr.elim⟩
    · exact nomatch h
  | overflow => rw [hcr] at h; exact nomatch h
  | raised e' s' h' =>
    rw [hcr] at g h
    injection h with h1 h2 h3
    subst h1; subst h2; subst h3
    refine ⟨g.1, ?_, ?_⟩
    · intro hs
      rcases g.2.2 with gs | gs
      · have gs : s' = parent := gs
        subst gs
        exact .inl ⟨rfl, create_at_once T n s' name u m f (f _ hp) hcr⟩
      · rw [g.1] at hs
        exact absurd (f _ hs) (Nat.not_lt.2 gs)
    · intro hr
      cases n with
      | zero => exact nomatch hcr
      | succ n =>
        unfold create at hcr
        cases e' with
        | typeNotRegistered =>
          have hr : T u = none := hr
          rw [hr] at hcr
          injection hcr with _ hs _
          exact hs.symm
        | invalidFieldType =>
          obtain ⟨l, hl, hk⟩ := hr
          rw [hl] at hcr
          dsimp only at hcr
          rw [if_pos hk] at hcr
          injection hcr with _ hs _
          exact hs.symm
        | invalidObjectName =>
          have hr : checkName name = .invalidObjectName := hr
          rw [hr] at hcr
          cases hT : T u with
          | none => rw [hT] at hcr; exact nomatch hcr
          | some t =>
            rw [hT] at hcr
            cases t with
            | simple l =>
              dsimp only at hcr
              split at hcr
              · exact nomatch hcr
              · injection hcr with _ hs _
                exact hs.symm
            | array item itemSize count simple => injection hcr with _ hs _; exact hs.symm
            | struct fds => injection hcr with _ hs _; exact hs.symm
        | _ => exact hr.elim

/-- A heap with three objects: an object, its collection of fields, and another one. -/
def heap3 : Heap := ⟨[2, 1, 0], 3⟩

/-- A structure with two numbers, the second of a type that is not registered if `hole`. -/
def types (hole : Bool) : Types := fun u =>
  if u = 100 then some (.struct [⟨"a".toList, 1, 0, ⟨0, true, false, false⟩⟩,
    ⟨"b".toList, if hole then 50 else 1, 4, ⟨0, true, false, false⟩⟩])
  else if u = 101 then some (.array 100 8 2 false)
  else if u = 1 then some (.simple ⟨.Int32, none, 0⟩)
  else none

example : Fresh heap3 ∧ 0 ∈ heap3.alive ∧ 1 ∈ heap3.alive ∧
    publish (types false) 9 0 1 ["x".toList] (some "y".toList) 7 heap3 =
      .raised .typeNotRegistered 0 heap3 ∧
    publish (types false) 9 0 1 ["x".toList] (some "1".toList) 101 heap3 =
      .raised .invalidObjectName 0 ⟨[2, 1, 0], 4⟩ ∧
    publish (types false) 9 0 1 ["x".toList] (some "x".toList) 101 heap3 =
      .raised .duplicateName 1 ⟨[2, 1, 0], 12⟩ := by
  refine ⟨?_, by decide, by decide, by decide +kernel, by decide +kernel, by decide +kernel⟩
  intro a ha
  revert ha
  revert a
  decide

/-- C128 is false of published fields: a structure one of whose fields has a type that is not
registered is refused by an exception whose sender was destroyed, the field that was being made. -/
theorem C128_field_fails : ∃ (T : Types) (m : Heap) (e : Err) (s : Addr) (m' : Heap),
    Fresh m ∧ 0 ∈ m.alive ∧ 1 ∈ m.alive ∧
    publish T 9 0 1 [] (some "pair".toList) 100 m = .raised e s m' ∧ s ∉ m'.alive := by
  refine ⟨types true, heap3, .typeNotRegistered, 3, ⟨[2, 1, 0], 6⟩, ?_, by decide, by decide,
    by decide +kernel, by decide⟩
  intro a ha
  revert ha
  revert a
  decide

/-- C128, published fields. A call that ends normally makes as many objects as the field has parts,
none of which was there before, and keeps those that were; destroying the field gives the memory
back. -/
theorem C128_made (T : Types) (n : Nat) (parent coll : Addr) (names : List Str)
    (name : Option Str) (u : Uuid) (m : Heap) (f : Fresh m) {ps : List Addr} {m' : Heap}
    (h : publish T n parent coll names name u m = .made ps m') (addr : Int) (fl : Mem.Flags) :
    (∃ t, Mem.create T n name u addr fl = .ok t ∧ ps.length = objects t) ∧
    ps.Nodup ∧ (∀ a ∈ ps, a ∉ m.alive) ∧ (∀ a, a ∈ m'.alive ↔ a ∈ ps ∨ a ∈ m.alive) ∧
    (m'.free ps).alive = m.alive ∧ Fresh m' ∧ name.getD [] ∉ names := by
  have g := create_good T n parent name u m f
  have sm := create_same T n parent name u m addr fl
  unfold publish at h
  cases hcr : create T n parent name u m with
  | raised e' s' h' => rw [hcr] at h; exact nomatch h
  | overflow => rw [hcr] at h; exact nomatch h
  | made qs h' =>
    rw [hcr] at g h sm
    dsimp only at h
    split at h
    · exact nomatch h
    · injection h with h1 h2
      subst h1; subst h2
      refine ⟨?_, ?_, ?_, ?_, g.free f rfl, g.fresh f, by assumption⟩
      · cases hc : Mem.create T n name u addr fl with
        | error e => rw [hc] at sm; exact sm.elim
        | ok t => rw [hc] at sm; exact ⟨t, rfl, sm⟩
      · rw [g.1]; exact List.nodup_range'
      · intro a ha hal
        exact absurd (f a hal) (Nat.not_lt.2 (g.range ha).1)
      · intro a
        rw [g.2.2, List.mem_append, List.mem_reverse]

example : publish (types false) 9 0 1 ["x".toList] (some "y".toList) 101 heap3 =
    .made [3, 4, 5, 6, 7, 8, 9, 10, 11] ⟨[11, 10, 9, 8, 7, 6, 5, 4, 3, 2, 1, 0], 12⟩ := by
  decide +kernel

/-- C128, published fields. The exceptions are those of the fields and their addresses (C83): with
the memory, nothing else is refused. -/
theorem C128_same (T : Types) (n : Nat) (parent : Addr) (name : Option Str) (u : Uuid) (m : Heap)
    (addr : Int) (fl : Mem.Flags) (e : Err) (he : e ≠ .overflow) :
    (∃ s m', create T n parent name u m = .raised e s m') ↔
      Mem.create T n name u addr fl = .error e := by
  have h := create_same T n parent name u m addr fl
  constructor
  · rintro ⟨s, m', hc⟩
    rw [hc] at h
    cases hm : Mem.create T n name u addr fl with
    | error e' => rw [hm] at h; rw [h.1]
    | ok t => rw [hm] at h; exact h.elim
  · intro hm
    rw [hm] at h
    cases hc : create T n parent name u m with
    | made ps m' => rw [hc] at h; exact h.elim
    | raised e' s m' => rw [hc] at h; rw [h.1]; exact ⟨s, m', rfl⟩
    | overflow => rw [hc] at h; exact absurd h he

example : create (types true) 9 0 (some "y".toList) 101 heap3 =
    .raised .typeNotRegistered 4 ⟨[2, 1, 0], 7⟩ := by decide +kernel

/-- C128, types. An exception of the type registry, in every state it can be in, leaves the types and
the objects that were there before the call. It has no sender, and then the size of an enumeration
is refused; or its sender still exists, unless it is about the type an array or a class refers to.
Missing: the sender of those does not exist (`C128_type_fails`). -/
theorem C128_type_partial (os : List Pub.Op) (o : Pub.Op) {e : YEx} {s : Option Addr}
    (h : ((Reg.init.run os).step o).2 = some (e, s)) :
    ((Reg.init.run os).step o).1.heap.alive = (Reg.init.run os).heap.alive ∧
    ((Reg.init.run os).step o).1.reg = (Reg.init.run os).reg ∧
    ((Reg.init.run os).step o).1.places = (Reg.init.run os).places ∧
    typeRaises (Reg.init.run os).reg o = some e ∧
    (s = none → ∃ u a size, o = .addEnumeration u a size ∧ size ∉ [1, 2, 4, 8]) ∧
    (∀ a, s = some a →
      (a ∈ ((Reg.init.run os).step o).1.heap.alive ↔ fromNewType e = false)) := by
  have hok := run_ok os Reg.init init_ok
  obtain ⟨h1, h2, h3, h4, h5⟩ := (step_done hok o).raised _ h
  have hr : typeRaises (Reg.init.run os).reg o = some e := by
    rw [← step_spec, h]; rfl
  refine ⟨h1, h3, h4, hr, ?_, ?_⟩
  · intro hs
    subst hs
    have addNone : ∀ u n c, ((Reg.init.run os).add o u n c).2 = some (e, none) →
        c (Reg.init.run os).heap.next = some (e, none) := by
      intro u n c hc
      unfold Reg.add at hc
      cases hf : (Reg.init.run os).reg.find? (fun e => e.uuid == u) with
      | some e' =>
        rw [hf] at hc
        injection hc with hc
        injection hc with _ hc
        exact nomatch hc
      | none =>
        rw [hf] at hc
        dsimp only at hc
        cases hx : c (Reg.init.run os).heap.next with
        | none => rw [hx] at hc; exact nomatch hc
        | some x => rw [hx] at hc; exact hc
    have namedNone : ∀ n rest, named (Reg.init.run os).self n rest = some (e, none) →
        rest = some (e, none) := by
      intro n rest hn
      unfold named at hn
      cases hk : checkName n with
      | ok r => rw [hk] at hn; exact hn
      | invalidObjectName =>
        rw [hk] at hn
        injection hn with hn
        injection hn with _ hn
        exact nomatch hn
    unfold Reg.step at h
    cases o with
    | addFloat u n _ _ _ _ k =>
      dsimp only at h
      split at h
      · exact nomatch namedNone _ _ (addNone _ _ _ h)
      · injection h with h; injection h with _ h; exact nomatch h
    | addInteger u n _ _ k =>
      dsimp only at h
      split at h
      · exact nomatch namedNone _ _ (addNone _ _ _ h)
      · injection h with h; injection h with _ h; exact nomatch h
    | addEnumeration u n size =>
      have hk := addNone _ _ _ h
      refine ⟨u, n, size, rfl, ?_⟩
      cases hs : Pub.enumKind size with
      | some k => rw [hs] at hk; exact nomatch namedNone _ _ hk
      | none =>
        intro hm
        simp only [List.mem_cons, List.not_mem_nil, or_false] at hm
        rcases hm with hm | hm | hm | hm <;> subst hm <;> exact nomatch hs
    | addArray u n item _ _ _ =>
      have ht := namedNone _ _ (addNone _ _ _ h)
      unfold array at ht
      split at ht
      · exact nomatch ht
      · split at ht <;> exact nomatch ht
    | addString u n _ => exact nomatch namedNone _ _ (addNone _ _ _ h)
    | addStructure u n => exact nomatch namedNone _ _ (addNone _ _ _ h)
    | addClass u n base =>
      have ht := namedNone _ _ (addNone _ _ _ h)
      unfold cls at ht
      split at ht
      · exact nomatch ht
      · split at ht
        · exact nomatch ht
        · split at ht <;> exact nomatch ht
    | addLiteral u n v =>
      dsimp only at h
      cases hg : Pub.getType (Reg.init.run os).reg u with
      | none => rw [hg] at h; exact nomatch h
      | some t =>
        obtain ⟨a, ha, _⟩ := addr_alive hok hg
        rw [hg] at h
        cases t with
        | enumeration k lits =>
          dsimp only at h
          split at h
          · injection h with h
            injection h with _ h
            rw [ha] at h
            exact nomatch h
          · exact nomatch h
        | _ => exact nomatch h
    | addField u f => exact nomatch h
  · intro a ha
    subst ha
    unfold Sent at h5
    dsimp only at h5
    rw [h1]
    cases hf : fromNewType e with
    | true =>
      rw [hf] at h5
      constructor
      · intro hal
        exact absurd (hok.fresh a hal) (Nat.not_lt.2 h5)
      · intro hx; exact nomatch hx
    | false =>
      rw [hf] at h5
      exact ⟨fun _ => rfl, fun _ => h5⟩

/-- An array of numbers registered, then a second type with the same UUID, an unknown type of items,
an enumeration of three bytes. -/
example :
    ((Reg.init.run [.addArray 100 (some "A".toList) 5 4 3 true]).step
      (.addString 100 (some "B".toList) 7)).2.map (·.2) = some (some 0) ∧
    ((Reg.init.run [.addArray 100 (some "A".toList) 5 4 3 true]).step
      (.addArray 101 (some "B".toList) 77 4 3 true)).2 =
        some (.notRegistered 77, some (Reg.init.heap.next + 1)) ∧
    ((Reg.init.run []).step (.addEnumeration 101 (some "E".toList) 3)).2 =
      some (.primitive "E".toList .None, none) := by decide +kernel

/-- C128 is false of types: an array of items of a type that is not registered is refused by an
exception whose sender is the new type, which was destroyed. -/
theorem C128_type_fails : ∃ (o : Pub.Op) (e : YEx) (a : Addr),
    (Reg.init.step o).2 = some (e, some a) ∧ a ∉ (Reg.init.step o).1.heap.alive := by
  refine ⟨.addArray 101 (some "B".toList) 77 4 3 true, .notRegistered 77, Reg.init.heap.next, ?_, ?_⟩
  · decide +kernel
  · decide +kernel

/-- C128, types. A call that registers a type makes one object, that of the type. -/
theorem C128_type_made (os : List Pub.Op) (o : Pub.Op) (u : Uuid) (name : Option Str)
    (ho : newType o = some (u, name)) (h : ((Reg.init.run os).step o).2 = none) :
    ∃ a, a ∉ (Reg.init.run os).heap.alive ∧ ((Reg.init.run os).step o).1.addr u = some a ∧
      (∀ b, b ∈ ((Reg.init.run os).step o).1.heap.alive ↔ b = a ∨ b ∈ (Reg.init.run os).heap.alive) ∧
      ∀ v b, (Reg.init.run os).addr v = some b →
        v ≠ u ∧ ((Reg.init.run os).step o).1.addr v = some b ∧ b ≠ a := by
  have hok := run_ok os Reg.init init_ok
  obtain ⟨h1, h2⟩ := step_normal _ o h
  rw [ho] at h2
  obtain ⟨h2, h3⟩ := h2
  dsimp only at h2
  have hn : (Pub.step (Reg.init.run os).reg o).2 = none := by
    rw [← type_cls, ← step_spec, h]; rfl
  have hfresh : ∀ x ∈ (Reg.init.run os).places, x.1 ≠ u := by
    intro x hx hxu
    have hm : u ∈ (Reg.init.run os).reg.map (·.uuid) := by
      rw [hok.same]
      exact List.mem_map.2 ⟨x, hx, hxu⟩
    obtain ⟨t, ht, htu⟩ := List.mem_map.1 hm
    have hf : ∃ e', (Reg.init.run os).reg.find? (fun e => e.uuid == u) = some e' := by
      cases hf : (Reg.init.run os).reg.find? (fun e => e.uuid == u) with
      | some e' => exact ⟨e', rfl⟩
      | none => exact absurd (by simpa using htu) (List.find?_eq_none.1 hf t ht)
    obtain ⟨e', hf⟩ := hf
    have hadd : ∀ n c, ((Reg.init.run os).add o u n c).2 ≠ none := by
      intro n c hc
      unfold Reg.add at hc
      rw [hf] at hc
      exact nomatch hc
    unfold Reg.step at h
    cases o with
    | addFloat u n _ _ _ _ k =>
      injection ho with ho; injection ho with ho _; subst ho
      dsimp only at h
      split at h
      · exact hadd _ _ h
      · exact nomatch h
    | addInteger u n _ _ k =>
      injection ho with ho; injection ho with ho _; subst ho
      dsimp only at h
      split at h
      · exact hadd _ _ h
      · exact nomatch h
    | addEnumeration u n size =>
      injection ho with ho; injection ho with ho _; subst ho; exact hadd _ _ h
    | addArray u n item _ _ _ =>
      injection ho with ho; injection ho with ho _; subst ho; exact hadd _ _ h
    | addString u n _ =>
      injection ho with ho; injection ho with ho _; subst ho; exact hadd _ _ h
    | addStructure u n =>
      injection ho with ho; injection ho with ho _; subst ho; exact hadd _ _ h
    | addClass u n base =>
      injection ho with ho; injection ho with ho _; subst ho; exact hadd _ _ h
    | addLiteral u n v => exact nomatch ho
    | addField u f => exact nomatch ho
  refine ⟨(Reg.init.run os).heap.next, ?_, ?_, ?_, ?_⟩
  · intro hal
    exact absurd (hok.fresh _ hal) (Nat.lt_irrefl _)
  · unfold Reg.addr
    rw [h2, List.find?_append]
    have : (Reg.init.run os).places.find? (fun x => x.1 == u) = none := by
      rw [List.find?_eq_none]
      intro x hx
      simpa using hfresh x hx
    rw [this]
    simp
  · intro b
    rw [h3]
    exact List.mem_cons
  · intro v b hv
    unfold Reg.addr at hv
    cases hf : (Reg.init.run os).places.find? (fun x => x.1 == v) with
    | none => rw [hf] at hv; exact nomatch hv
    | some y =>
      rw [hf] at hv
      injection hv with hv
      have hv : y.2 = b := hv
      have hy := List.mem_of_find?_eq_some hf
      have hyv : y.1 = v := by simpa using List.find?_some hf
      refine ⟨fun hvu => hfresh y hy (hyv.trans hvu), ?_, ?_⟩
      · unfold Reg.addr
        rw [h2, List.find?_append, hf]
        exact congrArg some hv
      · intro hb
        have := hok.fresh _ (hok.places y hy)
        rw [hv, hb] at this
        exact absurd this (Nat.lt_irrefl _)

example : newType (.addArray 100 (some "A".toList) 5 4 3 true) = some (100, some "A".toList) ∧
    (Reg.init.step (.addArray 100 (some "A".toList) 5 4 3 true)).2 = none ∧
    (Reg.init.step (.addArray 100 (some "A".toList) 5 4 3 true)).1.addr 100 =
      some Reg.init.heap.next := by decide +kernel

/-- C128, components. An exception that leaves the constructor of a component leaves exactly the
objects that were there before; its sender still exists if and only if the name of the component is
refused. Missing: the sender does not exist when a field is refused (`C128_component_fails`). -/
theorem C128_component_partial (parent : Addr) (known : Uuid → Bool) (name : Option Str)
    (fs : List (Option Str × Uuid)) (m : Heap) (f : Fresh m) (hp : parent ∈ m.alive)
    {e : Err} {s : Addr} {m' : Heap} (h : component parent known name fs m = .raised e s m') :
    m'.alive = m.alive ∧ (s ∈ m'.alive ↔ checkName name = .invalidObjectName) ∧
    (s ∈ m'.alive → s = parent) := by
  unfold component at h
  cases hn : checkName name with
  | invalidObjectName =>
    rw [hn] at h
    injection h with h1 h2 h3
    subst h1; subst h2; subst h3
    have := new_free m f
    exact ⟨this, ⟨fun _ => rfl, fun _ => by rw [this]; exact hp⟩, fun _ => rfl⟩
  | ok r =>
    rw [hn] at h
    have g := fields_good (comp := m.next) (known := known) m.new ((Made.new m).fresh f) fs [] m.new
      (Made.refl _)
    dsimp only at h
    cases ho : fields m.next known [] m.new fs with
    | made ps h' => rw [ho] at h; exact nomatch h
    | overflow => rw [ho] at h; exact nomatch h
    | raised e' s' h' =>
      rw [ho] at g h
      injection h with h1 h2 h3
      subst h1; subst h2; subst h3
      have ha := (Made.new m).free f g.1
      have hs : m.next ≤ s' := by
        rcases g.2.2 with gs | gs
        · exact Nat.le_of_eq gs.symm
        · exact Nat.le_trans (Nat.le_succ _) gs
      have hno : s' ∉ (h'.free [m.next]).alive := by
        rw [ha]
        intro hal
        exact absurd (f _ hal) (Nat.not_lt.2 hs)
      exact ⟨ha, ⟨fun hx => absurd hx hno, fun hx => nomatch hx⟩, fun hx => absurd hx hno⟩

example : component 0 (fun u => u = 5) (some "1".toList) [] heap3 =
      .raised .invalidObjectName 0 ⟨[2, 1, 0], 4⟩ ∧
    component 0 (fun u => u = 5) (some "c".toList) [(some "x".toList, 5), (some "y".toList, 6)] heap3 =
      .raised .invalidFieldType 5 ⟨[2, 1, 0], 6⟩ := by decide +kernel

/-- C128 is false of components: the sender of the exception about a field that is a member of a
component is destroyed with the component. -/
theorem C128_component_fails : ∃ (known : Uuid → Bool) (fs : List (Option Str × Uuid)) (m : Heap)
    (e : Err) (s : Addr) (m' : Heap), Fresh m ∧ 0 ∈ m.alive ∧
    component 0 known (some "c".toList) fs m = .raised e s m' ∧ s ∉ m'.alive := by
  refine ⟨fun u => u = 5, [(some "x".toList, 5), (some "y".toList, 6)], heap3, .invalidFieldType, 5,
    ⟨[2, 1, 0], 6⟩, ?_, by decide, by decide +kernel, by decide⟩
  intro a ha
  revert ha
  revert a
  decide

end Verif.Raise.Life
