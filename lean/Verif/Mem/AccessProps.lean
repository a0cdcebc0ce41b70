import Verif.Mem.StoreLemmas

/-! Values of published fields in memory: reading and writing (C85), storing and restoring (C86). -/
namespace Verif.Mem
open Verif.Any (Kind Fl Val Any Out ITy)
open Verif.Path (Str)
open Verif.Pub (Uuid primUuid)
open Verif.Field (coerce)

/-- What a value becomes in a field of type `l` and the same kind: a null pointer becomes an empty
string, and of a string only the first characters are kept. -/
def fitted (l : Leaf) : Val → Val
  | .str s => .str (some ((s.getD []).take l.len.toNat))
  | v => v

/-- The value is one of the literals, if the field is an enumeration of four bytes. -/
def Literal (l : Leaf) (v : Val) : Prop :=
  ∀ ls, l.lits = some ls → l.kind = .Int32 → ∃ z ∈ ls, v = .int z

theorem part_leaf {T : Types} {u : Uuid} {p : List Step} {l : Leaf} {o : Int} (h : Part T u p l o) :
    l.kind ≠ .None := by
  induction h with
  | simple _ h => exact h
  | item _ _ _ ih => exact ih
  | field _ _ _ ih => exact ih

theorem find_kind {T : Types} {p : List Step} {n : Nat} {name : Option Str} {u : Uuid} {a : Int}
    {fl : Flags} {t : PTree} (h : create T n name u a fl = .ok t) {l : Leaf} {x : Int} {f : Flags}
    (hp : t.find p = some (l, x, f)) : l.kind ≠ .None := by
  obtain ⟨o, ho, -⟩ := (find_iff p h _ _ _).1 hp
  exact part_leaf ho

theorem setValue_ok {m m' : Memory} {l : Leaf} {c : Bool} {x : Int} {v : Any}
    (h : setValue m l c x v = .ok m') : ∃ w, coerce Float.narrow l.kind l.len.toNat v = .ok w ∧
      m' = write m x (encode l.kind w) ∧ (l.kind = .String8 → 0 ≤ l.len) ∧ (c && refused l w) = false := by
  unfold setValue at h
  split at h
  · cases h
  · rename_i hs
    split at h
    · cases h
    · cases h
    · rename_i w hw
      split at h
      · cases h
      · rename_i hr
        cases h
        exact ⟨w, hw, rfl, fun e => by simp only [e, true_and, Int.not_lt] at hs; exact hs, by simpa using hr⟩

theorem not_refused {l : Leaf} {k : Kind} {v : Val} (hk : l.kind = k) (h : Typed k v) :
    refused l v = false ↔ Literal l v := by
  obtain ⟨k', lits, len⟩ := l
  simp only at hk
  subst hk
  unfold refused Literal
  cases lits with
  | none => cases k' <;> simp
  | some ls =>
    cases k' <;> simp
    obtain ⟨z, rfl, -⟩ := h
    simp

theorem coerce_own {l : Leaf} {v : Val} (hk : l.kind ≠ .None) (h : Typed l.kind v) :
    coerce Float.narrow l.kind l.len.toNat ⟨l.kind, v⟩ = .ok (fitted l v) := by
  obtain ⟨k, lits, len⟩ := l
  simp only at *
  have int : ∀ (T : ITy) (z : Int), k.int = some T → k.Range z →
      (Verif.Any.getInt T ⟨k, .int z⟩).map Val.int = .ok (.int z) := by
    intro T z hT hz
    have hz' := (Verif.Any.Kind.range_iff hT z).1 hz
    have := (Verif.Any.conv_ok (T := T) hz' (Verif.Any.getTable_ok T k T hT)).1 hz'
    unfold Verif.Any.getInt
    simp only [hT, this, Out.map]
  cases k
  case None => exact absurd rfl hk
  case Bool => obtain ⟨b, rfl⟩ := h; rfl
  case Char8 => obtain ⟨b, rfl, -⟩ := h; rfl
  case Float32 => obtain ⟨b, rfl, -⟩ := h; rfl
  case Float64 => obtain ⟨b, rfl, -⟩ := h; rfl
  case String8 => obtain ⟨b, rfl, -⟩ := h; rfl
  all_goals (
    obtain ⟨z, rfl, hz⟩ := h
    exact int _ z rfl hz)

/-- **C85.** After a `SetValue` that returns, the field (or the item of an array) reads as the
value converted to its kind; the conversions are those of `AnySimple` (C50, C69, C82). -/
theorem C85_read {T : Types} {n : Nat} {name : Option Str} {u : Uuid} {a : Int} {fl f : Flags}
    {t : PTree} (h : create T n name u a fl = .ok t) {p : List Step} {l : Leaf} {x : Int}
    (hp : t.find p = some (l, x, f)) {v : Any} (hv : Typed v.type v.value) {m m' : Memory}
    (hs : t.set m p v = .ok m') :
    ∃ w, coerce Float.narrow l.kind l.len.toNat v = .ok w ∧ t.get m' p = some (.ok ⟨l.kind, w⟩) := by
  unfold PTree.set at hs
  simp only [hp] at hs
  obtain ⟨w, hw, rfl, hl, -⟩ := setValue_ok hs
  refine ⟨w, hw, ?_⟩
  obtain ⟨h1, h2⟩ := coerce_typed hv hw
  unfold PTree.get
  simp only [hp]
  rw [getValue_write (find_kind h hp) h1 h2 hl]

/-- **C85.** A value of the kind of the field is accepted, and reads back as it is (a string is cut
to the length of its type; for an enumeration of four bytes, if the value is a literal). -/
theorem C85_exact {T : Types} (hL : Lengths T) {n : Nat} {name : Option Str} {u : Uuid} {a : Int}
    {fl f : Flags} {t : PTree} (h : create T n name u a fl = .ok t) {p : List Step} {l : Leaf} {x : Int}
    (hp : t.find p = some (l, x, f)) {v : Val} (hv : Typed l.kind v) (hl : Literal l v) (m : Memory) :
    ∃ m', t.set m p ⟨l.kind, v⟩ = .ok m' ∧ t.get m' p = some (.ok ⟨l.kind, fitted l v⟩) := by
  have hk := find_kind h hp
  have hlen : l.kind = .String8 → 0 ≤ l.len := by
    obtain ⟨o, ho, -⟩ := (find_iff p h _ _ _).1 hp
    have : ∃ w, T w = some (.simple l) := by
      clear hp h
      induction ho with
      | simple h _ => exact ⟨_, h⟩
      | item _ _ _ ih => exact ih hv hl hk
      | field _ _ _ ih => exact ih hv hl hk
    obtain ⟨w, hw⟩ := this
    exact fun e => (hL w l hw e).1
  have hc := coerce_own hk hv
  have hs : t.set m p ⟨l.kind, v⟩ = .ok (write m x (encode l.kind (fitted l v))) := by
    unfold PTree.set
    simp only [hp]
    unfold setValue
    rw [if_neg (by intro e; have := hlen e.1; omega), hc]
    simp only
    rw [if_neg]
    have h1 := (coerce_typed (a := ⟨l.kind, v⟩) hv hc).1
    have h2 : Literal l (fitted l v) := by
      intro ls hls hk'
      obtain ⟨z, hz, rfl⟩ := hl ls hls hk'
      exact ⟨z, hz, rfl⟩
    rw [(not_refused rfl h1).2 h2]
    simp
  refine ⟨_, hs, ?_⟩
  obtain ⟨w, hw, hg⟩ := C85_read h hp (v := ⟨l.kind, v⟩) hv hs
  rw [hc] at hw
  cases hw
  exact hg

/-- **C85.** `SetValue` changes no byte outside the field; the other fields keep their values. -/
theorem C85_others {T : Types} {n : Nat} {name : Option Str} {u : Uuid} {a : Int} {fl f : Flags}
    {t : PTree} (h : create T n name u a fl = .ok t) {p : List Step} {l : Leaf} {x : Int}
    (hp : t.find p = some (l, x, f)) {v : Any} (hv : Typed v.type v.value) {m m' : Memory}
    (hs : t.set m p v = .ok m') :
    (∀ y, y < x ∨ x + l.width ≤ y → m' y = m y) ∧
    ∀ {size : Nat}, Sized T u size → ∀ q, q ≠ p → t.get m' q = t.get m q := by
  unfold PTree.set at hs
  simp only [hp] at hs
  obtain ⟨w, hw, rfl, hl, -⟩ := setValue_ok hs
  obtain ⟨h1, h2⟩ := coerce_typed hv hw
  have hlen := length_encode h1 h2 hl
  have hout : ∀ y, y < x ∨ x + l.width ≤ y → write m x (encode l.kind w) y = m y :=
    fun y hy => write_out (by omega)
  refine ⟨hout, ?_⟩
  intro size hsz q hq
  unfold PTree.get
  cases hf : t.find q with
  | none => rfl
  | some r =>
    obtain ⟨l', x', f'⟩ := r
    simp only
    rw [getValue_congr]
    intro y h3 h4
    have := C83_disjoint h hsz hq hf hp
    exact hout y (by omega)

/-- **C85.** A `SetValue` that raises changes nothing. -/
theorem C85_raised {t : PTree} {p : List Step} {v : Any} {m m' : Memory}
    (hs : t.set m p v = .raised m') : m' = m := by
  unfold PTree.set at hs
  split at hs
  · unfold setValue at hs
    repeat' split at hs
    all_goals first | (cases hs; rfl) | cases hs
  · cases hs; rfl

/-- **C85.** A simple field whose type is an enumeration of four bytes only ever gets a literal;
another value is refused. (Items of arrays and enumerations of other sizes are not checked:
C60.) -/
theorem C85_literals {T : Types} {n : Nat} {name : Option Str} {u : Uuid} {a : Int} {fl f : Flags}
    {t : PTree} (h : create T n name u a fl = .ok t) {p : List Step} {l : Leaf} {x : Int}
    (hp : t.find p = some (l, x, f)) (hsimple : t.simpleAt p = true) {v : Any}
    (hv : Typed v.type v.value) (m : Memory) :
    (∀ m', t.set m p v = .ok m' → ∃ w, t.get m' p = some (.ok ⟨l.kind, w⟩) ∧ Literal l w) ∧
    (∀ w, coerce Float.narrow l.kind l.len.toNat v = .ok w → ¬ Literal l w → t.set m p v = .raised m) := by
  constructor
  · intro m' hs
    obtain ⟨w, hw, hg⟩ := C85_read h hp hv hs
    refine ⟨w, hg, ?_⟩
    unfold PTree.set at hs
    simp only [hp] at hs
    obtain ⟨w', hw', -, -, hr⟩ := setValue_ok hs
    rw [hw] at hw'; cases hw'
    rw [hsimple, Bool.true_and] at hr
    exact (not_refused rfl (coerce_typed hv hw).1).1 hr
  · intro w hw hnl
    have hr : refused l w = true := by
      cases hr : refused l w with
      | true => rfl
      | false => exact absurd ((not_refused rfl (coerce_typed hv hw).1).1 hr) hnl
    have hk : l.kind = .Int32 := by
      revert hr; unfold refused
      cases l.kind <;> simp
    unfold PTree.set
    simp only [hp]
    unfold setValue
    rw [if_neg (by rw [hk]; simp), hw]
    simp only
    rw [hsimple, hr]; rfl

/-- The simple fields, by path: an item of an array of simple values is not one. -/
example : ∃ t, create exT 4 (some ['v']) 102 1000 exFl = .ok t ∧
    t.simpleAt [.item 1, .field ['x']] = true ∧ t.simpleAt [.item 1, .field ['y'], .item 2] = false :=
  ⟨_, rfl, by decide, by decide⟩

/-! Non-vacuity: writing the array of structures of `exT`. -/

example : ∃ t m', create exT 4 (some ['v']) 102 1000 exFl = .ok t ∧
    t.set (fun _ => 0) [.item 1, .field ['y'], .item 2] ⟨.Int32, .int (-2)⟩ = .ok m' ∧
    t.get m' [.item 1, .field ['y'], .item 2] = some (.ok ⟨.Int16, .int (-2)⟩) ∧
    m' 1020 = 254 ∧ m' 1021 = 255 ∧ m' 1022 = 0 :=
  ⟨_, _, rfl, rfl, by decide, by decide, by decide, by decide⟩

example : Lengths exT := by
  intro u l h
  unfold exT at h
  split at h <;> simp at h <;> subst h <;> simp

/-- A string type of length -1: `AddStringType` accepts it. -/
def negT : Types
  | 100 => some (.simple ⟨.String8, none, -1⟩)
  | _ => none

/-- **C85 does not hold** of strings of a type with a negative length: every `SetValue` writes
outside the field. -/
theorem C85_length_fails : ∃ t, create negT 1 (some ['v']) 100 0 exFl = .ok t ∧
    ∀ m v, t.set m [] v = .ub :=
  ⟨_, rfl, fun _ _ => rfl⟩

/-- **C86.** What `Store` writes for a variable, `Restore` reads back, in another program where the
variable is at another address: exactly those bytes are read, the parts that are state (they and
all that they are in) get the bytes they had, the other parts and the memory outside the variable
are not changed. -/
theorem C86_restored {T : Types} (hL : Lengths T) {n n' : Nat} {name : Option Str} {u : Uuid}
    {a a' : Int} {fl : Flags} {t t' : PTree} {size : Nat}
    (h : create T n name u a fl = .ok t) (h' : create T n' name u a' fl = .ok t')
    (hs : Sized T u size) (old new : Memory) (rest : List Byte) :
    ∃ res, t'.restore new (t.store old ++ rest) = some (res, rest) ∧
      (∀ p l x x' f f', t.find p = some (l, x, f) → t'.find p = some (l, x', f') →
        (Kept T u fl p → read res x' l.width = read old x l.width) ∧
        (¬ Kept T u fl p → read res x' l.width = read new x' l.width)) ∧
      ∀ y, y < a' ∨ a' + size ≤ y → res y = new y := by
  -- the same bound for both
  have hN := create_mono_le h (Nat.le_max_left n n')
  have hN' := create_mono_le h' (Nat.le_max_right n n')
  have hsh : t' = t.shift (a' - a) := by
    have e := create_shift (T := T) (a' - a) (max n n') name u a fl
    rw [show a + (a' - a) = a' by omega, hN, hN'] at e
    simpa [Except.map] using e
  have hstore : t'.store (fun y => old (y - (a' - a))) = t.store old := by
    rw [hsh, store_shift]
    congr 1
    funext y
    congr 1
    omega
  obtain ⟨res, hr, hy⟩ := restore_store (fun y => old (y - (a' - a))) t' new rest
  rw [hstore] at hr
  refine ⟨res, hr, ?_, ?_⟩
  · intro p l x x' f f' hp hp'
    obtain ⟨o, ho, rfl, -⟩ := (find_iff p h _ _ _).1 hp
    have hx' : x' = a' + o := by
      obtain ⟨f'', hf''⟩ : ∃ f'', Annotated T u fl p f'' := by
        obtain ⟨_, -, -, ha⟩ := (find_iff p h _ _ _).1 hp
        exact ⟨_, ha⟩
      have := (find_iff p h' l (a' + o) f'').2 ⟨o, ho, rfl, hf''⟩
      rw [hp'] at this
      simp only [Option.some.injEq, Prod.mk.injEq] at this
      exact this.2.1
    subst hx'
    have key := covers_iff_kept hL p h' hs hp'
    constructor
    · intro hk
      have : read res (a' + o) l.width = read (fun y => old (y - (a' - a))) (a' + o) l.width :=
        read_congr (fun y h1 h2 => (hy y).1 ((key y h1 h2).2 hk))
      rw [this]
      unfold read
      apply List.map_congr_left
      intro i _
      exact congrArg old (by omega)
    · intro hk
      exact read_congr (fun y h1 h2 => (hy y).2 (fun hc => hk ((key y h1 h2).1 hc)))
  · intro y hyo
    refine (hy y).2 (fun hc => ?_)
    have := covers_inside hL h' hs y hc
    omega

/-! Non-vacuity: in `exT`, `x` is state and `y` is not. -/

example : Kept exT 102 exFl [.item 1, .field ['x']] ∧ ¬ Kept exT 102 exFl [.item 1, .field ['y'], .item 2] := by
  constructor
  · exact .item rfl rfl (.field (fd := ⟨['x'], 6, 0, exFl⟩) rfl (by simp) rfl (.here rfl))
  · intro h
    cases h with
    | item h1 h2 h3 =>
      cases h1
      generalize hq : [Step.field ['y'], Step.item 2] = q at h3
      cases h3 with
      | here => cases hq
      | item => cases hq
      | field h4 h5 h6 h7 =>
        cases h4
        simp only [List.mem_cons, List.not_mem_nil, or_false] at h5
        rcases h5 with rfl | rfl
        · simp at hq
        · cases h7 with
          | here h8 => cases hq
          | item h8 h9 h10 => cases h9
          | field h8 h9 h10 => cases h10

example : ∃ t t' res, create exT 4 (some ['v']) 102 1000 exFl = .ok t ∧
    create exT 4 (some ['v']) 102 5000 exFl = .ok t' ∧
    t'.restore (fun _ => 9) (t.store (fun x => BitVec.ofInt 8 x)) = some (res, []) ∧
    res 5000 = 1000 % 256 ∧ res 5004 = 9 ∧ res 5012 = 1012 % 256 :=
  ⟨_, _, _, rfl, rfl, rfl, by decide, by decide, by decide⟩

end Verif.Mem
