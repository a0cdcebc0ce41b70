import Verif.Mem.AccessLemmas

/-! Lemmas on storing and restoring published fields. -/
namespace Verif.Mem
open Verif.Any (Kind)
open Verif.Path (Str)
open Verif.Pub (Uuid)

/-! ### Specification -/

/-- The part at `p` of a variable of type `u` published with `fl` is part of the stored state: it
and everything it is in are annotated as state. -/
inductive Kept (T : Types) : Uuid → Flags → List Step → Prop
  | here {u fl} (hs : fl.state = true) : Kept T u fl []
  | item {u item size count s i p fl} (h : T u = some (.array item size count s))
      (hs : fl.state = true) (hp : Kept T item fl p) : Kept T u fl (.item i :: p)
  | field {u fds fd p} {fl : Flags} (h : T u = some (.struct fds)) (hf : fd ∈ fds)
      (hs : fl.state = true)
      (hp : Kept T fd.uuid ⟨fd.flags.view, fd.flags.state, fd.flags.input || fl.input,
        fd.flags.output || fl.output⟩ p) : Kept T u fl (.field fd.name :: p)

/-- The lengths of string types are those of buffers (`StringType` accepts negative lengths). -/
def Lengths (T : Types) : Prop :=
  ∀ u l, T u = some (.simple l) → l.kind = .String8 → 0 ≤ l.len ∧ l.len < 2 ^ 63

/-! ### Lemmas -/

theorem size_width {l : Leaf} (h : l.kind = .String8 → 0 ≤ l.len ∧ l.len < 2 ^ 63) : l.size = l.width := by
  obtain ⟨k, lits, len⟩ := l
  cases k <;> simp [Leaf.size, Leaf.width] at h ⊢
  omega

mutual
/-- The bytes that are stored. -/
def PTree.covers (y : Int) : PTree → Prop
  | .simple l a fl => fl.state = true ∧ a ≤ y ∧ y < a + l.size
  | .sarray _ a itemSize count fl => fl.state = true ∧ a ≤ y ∧ y < a + (itemSize * count : Nat)
  | .array ts fl => fl.state = true ∧ coversAny y ts
  | .struct _ ts fl => fl.state = true ∧ coversAny y ts
def coversAny (y : Int) : List PTree → Prop
  | [] => False
  | t :: ts => t.covers y ∨ coversAny y ts
end

theorem coversAny_iff {y : Int} : ∀ {ts : List PTree}, coversAny y ts ↔ ∃ t ∈ ts, t.covers y
  | [] => by simp [coversAny]
  | t :: ts => by simp [coversAny, coversAny_iff (ts := ts)]

theorem covers_array {y : Int} {ts : List PTree} {fl : Flags} :
    (PTree.array ts fl).covers y ↔ fl.state = true ∧ coversAny y ts := by rw [PTree.covers]

theorem covers_struct {y : Int} {ns : List Str} {ts : List PTree} {fl : Flags} :
    (PTree.struct ns ts fl).covers y ↔ fl.state = true ∧ coversAny y ts := by rw [PTree.covers]

theorem restoreBytes_read (m1 m2 : Memory) (a : Int) (n : Nat) (rest : List Byte) :
    ∃ m3, restoreBytes m2 a n (read m1 a n ++ rest) = some (m3, rest) ∧
      ∀ y, (a ≤ y ∧ y < a + n → m3 y = m1 y) ∧ (¬ (a ≤ y ∧ y < a + n) → m3 y = m2 y) := by
  have hl := length_read m1 a n
  refine ⟨write m2 a (read m1 a n), ?_, ?_⟩
  · unfold restoreBytes
    rw [if_pos (by simp [hl])]
    rw [List.take_left' hl, List.drop_left' hl]
  · intro y
    constructor
    · rintro ⟨h1, h2⟩
      obtain ⟨i, rfl⟩ : ∃ i : Nat, y = a + i := ⟨(y - a).toNat, by omega⟩
      exact write_in (by rw [getElem?_read, if_pos (by omega)])
    · intro h
      exact write_out (by rw [hl]; omega)

mutual
theorem restore_store (m1 : Memory) : ∀ (t : PTree) (m2 : Memory) (rest : List Byte),
    ∃ m3, t.restore m2 (t.store m1 ++ rest) = some (m3, rest) ∧
      ∀ y, (t.covers y → m3 y = m1 y) ∧ (¬ t.covers y → m3 y = m2 y)
  | .simple l a fl, m2, rest => by
    unfold PTree.restore PTree.store PTree.covers
    cases hs : fl.state with
    | true => simpa using restoreBytes_read m1 m2 a l.size rest
    | false => exact ⟨m2, by simp, by simp⟩
  | .sarray l a isz count fl, m2, rest => by
    unfold PTree.restore PTree.store PTree.covers
    cases hs : fl.state with
    | true => simpa using restoreBytes_read m1 m2 a (isz * count) rest
    | false => exact ⟨m2, by simp, by simp⟩
  | .array ts fl, m2, rest => by
    unfold PTree.restore PTree.store PTree.covers
    cases hs : fl.state with
    | true => simpa using restoreAll_store m1 ts m2 rest
    | false => exact ⟨m2, by simp, by simp⟩
  | .struct ns ts fl, m2, rest => by
    unfold PTree.restore PTree.store PTree.covers
    cases hs : fl.state with
    | true => simpa using restoreAll_store m1 ts m2 rest
    | false => exact ⟨m2, by simp, by simp⟩
theorem restoreAll_store (m1 : Memory) : ∀ (ts : List PTree) (m2 : Memory) (rest : List Byte),
    ∃ m3, restoreAll m2 (storeAll m1 ts ++ rest) ts = some (m3, rest) ∧
      ∀ y, (coversAny y ts → m3 y = m1 y) ∧ (¬ coversAny y ts → m3 y = m2 y)
  | [], m2, rest => ⟨m2, by simp [restoreAll, storeAll], by simp [coversAny]⟩
  | t :: ts, m2, rest => by
    obtain ⟨m3, h1, h2⟩ := restore_store m1 t m2 (storeAll m1 ts ++ rest)
    obtain ⟨m4, h3, h4⟩ := restoreAll_store m1 ts m3 rest
    refine ⟨m4, ?_, ?_⟩
    · unfold restoreAll storeAll
      rw [List.append_assoc, h1]
      exact h3
    · intro y
      unfold coversAny
      constructor
      · intro h
        by_cases hc : coversAny y ts
        · exact (h4 y).1 hc
        · rw [(h4 y).2 hc]
          exact (h2 y).1 (h.resolve_right hc)
      · intro h
        rw [(h4 y).2 (fun e => h (.inr e)), (h2 y).2 (fun e => h (.inl e))]
end

theorem mapE_mem {α β : Type} {f : α → Except Err β} {xs : List α} {ys : List β} (h : mapE f xs = .ok ys)
    {y : β} (hy : y ∈ ys) : ∃ (i : Nat) (x : α), xs[i]? = some x ∧ ys[i]? = some y ∧ f x = .ok y := by
  obtain ⟨h1, h2⟩ := mapE_ok h
  obtain ⟨i, hi⟩ := List.mem_iff_getElem?.1 hy
  have hlt := (List.getElem?_eq_some_iff.1 hi).1
  have hx : xs[i]? = some (xs[i]'(by omega)) := List.getElem?_eq_getElem (by omega)
  obtain ⟨y', hy', hf⟩ := h2 i _ hx
  rw [hi] at hy'; cases hy'
  exact ⟨i, _, hx, hi, hf⟩

theorem createFields_mem {c : FDef → Except Err PTree} : ∀ {fds : List FDef} {done : List Str}
    {ts : List PTree}, createFields c done fds = .ok ts →
    ts.length = fds.length ∧ ∀ (i : Nat) t, ts[i]? = some t → ∃ fd, fds[i]? = some fd ∧ c fd = .ok t
  | [], done, ts, h => by cases h; simp
  | fd :: fds, done, ts, h => by
    unfold createFields at h
    cases hx : c fd with
    | error e => rw [hx] at h; cases h
    | ok t =>
      simp only [hx] at h
      by_cases hd : fd.name ∈ done
      · rw [if_pos hd] at h; cases h
      · rw [if_neg hd] at h
        cases hr : createFields c (fd.name :: done) fds with
        | error e => simp only [hr] at h; cases h
        | ok zs =>
          simp only [hr] at h
          cases h
          obtain ⟨h1, h2⟩ := createFields_mem hr
          refine ⟨by simp [h1], ?_⟩
          intro i t' hi
          cases i with
          | zero => simp at hi; subst hi; exact ⟨fd, by simp, hx⟩
          | succ i => simpa using h2 i t' (by simpa using hi)

theorem covers_inside {T : Types} (hL : Lengths T) : ∀ {n : Nat} {name : Option Str} {u : Uuid} {a : Int}
    {fl : Flags} {t : PTree} {size : Nat}, create T n name u a fl = .ok t → Sized T u size →
    ∀ y, t.covers y → a ≤ y ∧ y < a + size := by
  intro n
  induction n with
  | zero => intro name u a fl t size h; cases h
  | succ n ih =>
    intro name u a fl t size h hs y hc
    obtain ⟨m, e, ⟨l0, hT, hk, rfl⟩ | ⟨item, isz, count, s, l0, hT, hi, hk, rfl⟩ |
      ⟨item, isz, count, s, ts, hT, hm, rfl⟩ | ⟨fds, ts, hT, hm, rfl⟩⟩ := create_cases h
    · cases hs with
      | simple h1 h2 =>
        rw [hT] at h1; cases h1
        unfold PTree.covers at hc
        have := size_width (hL u l0 hT)
        omega
      | array h1 => rw [hT] at h1; cases h1
      | struct sz h1 => rw [hT] at h1; cases h1
    · cases hs with
      | simple h1 => rw [hT] at h1; cases h1
      | array h1 h2 h3 =>
        rw [hT] at h1; cases h1
        unfold PTree.covers at hc
        rw [Nat.mul_comm] at h3
        omega
      | struct sz h1 => rw [hT] at h1; cases h1
    · cases hs with
      | simple h1 => rw [hT] at h1; cases h1
      | array h1 h2 h3 =>
        rw [hT] at h1; cases h1
        unfold PTree.covers at hc
        obtain ⟨t, ht, hc⟩ := coversAny_iff.1 hc.2
        obtain ⟨i, x, hx, -, hf⟩ := mapE_mem hm ht
        cases Nat.succ.inj e
        have hi : x < count := List.mem_range.1 (List.mem_iff_getElem?.2 ⟨i, hx⟩)
        have h4 := ih hf h2 y hc
        have h5 : (x + 1) * isz ≤ count * isz := Nat.mul_le_mul_right _ (by omega)
        have h6 : (x + 1) * isz = x * isz + isz := by rw [Nat.add_mul]; omega
        have h7 : (x : Int) * (isz : Int) = ((x * isz : Nat) : Int) := by simp
        rw [h7] at h4
        omega
      | struct sz h1 => rw [hT] at h1; cases h1
    · cases hs with
      | simple h1 => rw [hT] at h1; cases h1
      | array h1 => rw [hT] at h1; cases h1
      | struct sz h1 h2 h3 h4 =>
        rw [hT] at h1; cases h1
        unfold PTree.covers at hc
        obtain ⟨t, ht, hc⟩ := coversAny_iff.1 hc.2
        obtain ⟨i, hi⟩ := List.mem_iff_getElem?.1 ht
        obtain ⟨fd, hfd, hf⟩ := (createFields_mem hm).2 i t hi
        cases Nat.succ.inj e
        have hmem := List.mem_iff_getElem?.2 ⟨i, hfd⟩
        have h5 := ih hf (h2 fd hmem) y hc
        have := h3 fd hmem
        omega

theorem kept_item {T : Types} {u item : Uuid} {isz count : Nat} {s : Bool}
    (hT : T u = some (.array item isz count s)) {fl : Flags} {i : Nat} {p : List Step} :
    Kept T u fl (.item i :: p) ↔ fl.state = true ∧ Kept T item fl p := by
  constructor
  · intro h
    cases h with
    | item h1 hs hp => rw [hT] at h1; cases h1; exact ⟨hs, hp⟩
  · rintro ⟨hs, hp⟩; exact .item hT hs hp

theorem kept_field {T : Types} {u : Uuid} {fds : List FDef} (hT : T u = some (.struct fds))
    (hnd : (fds.map (·.name)).Nodup) {fd : FDef} (hfd : fd ∈ fds) {fl : Flags} {p : List Step} :
    Kept T u fl (.field fd.name :: p) ↔ fl.state = true ∧
      Kept T fd.uuid ⟨fd.flags.view, fd.flags.state, fd.flags.input || fl.input,
        fd.flags.output || fl.output⟩ p := by
  constructor
  · intro h
    generalize hq : Step.field fd.name :: p = q at h
    cases h with
    | here => cases hq
    | item => cases hq
    | field h1 hf hs hp =>
      rw [hT] at h1; cases h1
      simp only [List.cons.injEq, Step.field.injEq] at hq
      obtain ⟨hq1, rfl⟩ := hq
      cases names_inj hnd hf hfd hq1
      exact ⟨hs, hp⟩
  · rintro ⟨hs, hp⟩; exact .field hT hfd hs hp

theorem lookup_mem {s : Str} : ∀ {ns : List Str} {ts : List PTree} {t : PTree}, lookup s ns ts = some t → t ∈ ts
  | [], _, _, h => by simp [lookup] at h
  | _ :: _, [], _, h => by simp [lookup] at h
  | n :: ns, t' :: ts, t, h => by
    unfold lookup at h
    split at h
    · cases h; exact List.mem_cons_self
    · exact List.mem_cons_of_mem _ (lookup_mem h)

/-- A byte of a part is stored if and only if the part is kept. -/
theorem covers_iff_kept {T : Types} (hL : Lengths T) : ∀ (p : List Step) {n : Nat} {name : Option Str}
    {u : Uuid} {a : Int} {fl : Flags} {t : PTree} {size : Nat}, create T n name u a fl = .ok t →
    Sized T u size → ∀ {l : Leaf} {x : Int} {f : Flags}, t.find p = some (l, x, f) →
    ∀ y, x ≤ y → y < x + l.width → (t.covers y ↔ Kept T u fl p) := by
  intro p
  induction p with
  | nil =>
    intro n name u a fl t size h hs l x f hf y h1 h2
    obtain ⟨m, rfl, ⟨l0, hT, hk, rfl⟩ | ⟨item, isz, count, s, l0, hT, hi, hk, rfl⟩ |
      ⟨item, isz, count, s, ts, hT, hm, rfl⟩ | ⟨fds, ts, hT, hm, rfl⟩⟩ := create_cases h
    · simp only [PTree.find, Option.some.injEq, Prod.mk.injEq] at hf
      obtain ⟨rfl, rfl, rfl⟩ := hf
      unfold PTree.covers
      rw [size_width (hL u l0 hT)]
      constructor
      · intro hc; exact .here hc.1
      · intro hk; cases hk with
        | here hs => exact ⟨hs, h1, h2⟩
    all_goals simp [PTree.find] at hf
  | cons st p ih =>
    intro n name u a fl t size h hs l x f hf y h1 h2
    have hf0 := hf
    obtain ⟨m, rfl, ⟨l0, hT, hk, rfl⟩ | ⟨item, isz, count, s, l0, hT, hi, hk, rfl⟩ |
      ⟨item, isz, count, s, ts, hT, hm, rfl⟩ | ⟨fds, ts, hT, hm, rfl⟩⟩ := create_cases h
    · cases st <;> simp [PTree.find] at hf
    · cases st with
      | field => cases p <;> simp [PTree.find] at hf
      | item i =>
        cases p with
        | cons => simp [PTree.find] at hf
        | nil =>
          simp only [PTree.find] at hf
          split at hf
          · rename_i hlt
            cases hf
            rw [kept_item hT]
            unfold PTree.covers
            constructor
            · intro hc; exact ⟨hc.1, .here hc.1⟩
            · intro hc
              refine ⟨hc.1, ?_⟩
              cases hs with
              | simple h1 => rw [hT] at h1; cases h1
              | struct sz h1 => rw [hT] at h1; cases h1
              | array h3 h4 h5 =>
                rw [hT] at h3; cases h3
                cases h4 with
                | simple h6 h7 =>
                  rw [hi] at h6; cases h6
                  have h8 : (i + 1) * isz ≤ count * isz := Nat.mul_le_mul_right _ (by omega)
                  have h9 : (i + 1) * isz = i * isz + isz := by rw [Nat.add_mul]; omega
                  have h10 : (i : Int) * (isz : Int) = ((i * isz : Nat) : Int) := by simp
                  rw [h10] at h1 h2
                  rw [Nat.mul_comm isz]
                  omega
                | array h6 => rw [hi] at h6; cases h6
                | struct sz h6 => rw [hi] at h6; cases h6
          · cases hf
    · cases hs with
      | simple h1 => rw [hT] at h1; cases h1
      | struct sz h1 => rw [hT] at h1; cases h1
      | array h3 h4 h5 =>
        rw [hT] at h3; cases h3
        cases st with
        | field => cases p <;> simp [PTree.find] at hf
        | item i =>
          simp only [PTree.find] at hf
          cases hti : ts[i]? with
          | none => simp only [hti] at hf; cases hf
          | some t =>
            simp only [hti] at hf
            obtain ⟨hlen, hget⟩ := mapE_ok hm
            rw [List.length_range] at hlen
            have hlt : i < count := by
              have := (List.getElem?_eq_some_iff.1 hti).1
              omega
            obtain ⟨t', ht', hc⟩ := hget i i (by simp [hlt])
            rw [hti] at ht'; cases ht'
            have key := ih hc h4 hf y h1 h2
            rw [kept_item hT, ← key]
            rw [covers_array, coversAny_iff]
            have hin : a + i * isz ≤ y ∧ y < a + i * isz + isz := by
              obtain ⟨o, ho, rfl, -⟩ := (find_iff p hc _ _ _).1 hf
              have := part_inside ho h4
              omega
            constructor
            · rintro ⟨hst, t', ht', hcov⟩
              refine ⟨hst, ?_⟩
              obtain ⟨j, x', hx', hj, hfj⟩ := mapE_mem hm ht'
              have hxj : x' = j ∧ j < count := by
                have := (List.getElem?_eq_some_iff.1 hx')
                obtain ⟨w, hw⟩ := this
                simp at hw w
                exact ⟨hw.symm, w⟩
              obtain ⟨rfl, hjc⟩ := hxj
              by_cases hij : i = x'
              · subst hij
                rw [hti] at hj; cases hj; exact hcov
              · exfalso
                have hin' := covers_inside hL hfj h4 y hcov
                have e1 : (i : Int) * (isz : Int) = ((i * isz : Nat) : Int) := by simp
                have e2 : (x' : Int) * (isz : Int) = ((x' * isz : Nat) : Int) := by simp
                rw [e1] at hin
                rw [e2] at hin'
                rcases Nat.lt_or_gt_of_ne hij with hlt' | hlt'
                · have h7 : (i + 1) * isz ≤ x' * isz := Nat.mul_le_mul_right _ (by omega)
                  have h8 : (i + 1) * isz = i * isz + isz := by rw [Nat.add_mul]; omega
                  omega
                · have h7 : (x' + 1) * isz ≤ i * isz := Nat.mul_le_mul_right _ (by omega)
                  have h8 : (x' + 1) * isz = x' * isz + isz := by rw [Nat.add_mul]; omega
                  omega
            · rintro ⟨hst, hcov⟩
              exact ⟨hst, t, List.mem_iff_getElem?.2 ⟨i, hti⟩, hcov⟩
    · cases hs with
      | simple h1 => rw [hT] at h1; cases h1
      | array h1 => rw [hT] at h1; cases h1
      | struct sz h3 hfs hb hd =>
        rw [hT] at h3; cases h3
        cases st with
        | item => cases p <;> simp [PTree.find] at hf
        | field s =>
          simp only [PTree.find] at hf
          cases hlk : lookup s (fds.map (·.name)) ts with
          | none => simp only [hlk] at hf; cases hf
          | some t =>
            simp only [hlk] at hf
            obtain ⟨hnd, -, hl⟩ := createFields_ok hm
            obtain ⟨fd, hmem, rfl, hc⟩ := (hl s).1 t hlk
            have key := ih hc (hfs fd hmem) hf y h1 h2
            rw [kept_field hT hnd hmem, ← key]
            rw [covers_struct, coversAny_iff]
            have hin : a + fd.offset ≤ y ∧ y < a + fd.offset + sz fd := by
              obtain ⟨o, ho, rfl, -⟩ := (find_iff p hc _ _ _).1 hf
              have := part_inside ho (hfs fd hmem)
              omega
            constructor
            · rintro ⟨hst, t', ht', hcov⟩
              refine ⟨hst, ?_⟩
              obtain ⟨j, hj⟩ := List.mem_iff_getElem?.1 ht'
              obtain ⟨fd', hfd', hc'⟩ := (createFields_mem hm).2 j t' hj
              have hmem' := List.mem_iff_getElem?.2 ⟨j, hfd'⟩
              by_cases he : fd = fd'
              · subst he
                rw [hc] at hc'; cases hc'; exact hcov
              · exfalso
                have hin' := covers_inside hL hc' (hfs fd' hmem') y hcov
                rcases pairwise_of_ne (fun x y h => h.symm) hd hmem hmem' he with h9 | h9 <;> omega
            · rintro ⟨hst, hcov⟩
              refine ⟨hst, t, ?_, hcov⟩
              exact lookup_mem hlk

/-! ### The same variable elsewhere -/

mutual
/-- The same fields, `d` bytes further. -/
def PTree.shift (d : Int) : PTree → PTree
  | .simple l a fl => .simple l (a + d) fl
  | .sarray l a itemSize count fl => .sarray l (a + d) itemSize count fl
  | .array ts fl => .array (shiftAll d ts) fl
  | .struct ns ts fl => .struct ns (shiftAll d ts) fl
def shiftAll (d : Int) : List PTree → List PTree
  | [] => []
  | t :: ts => t.shift d :: shiftAll d ts
end

theorem mapE_shift {α : Type} {d : Int} {f g : α → Except Err PTree}
    (h : ∀ x, g x = (f x).map (PTree.shift d)) : ∀ xs, mapE g xs = (mapE f xs).map (shiftAll d)
  | [] => by simp [mapE, Except.map, shiftAll]
  | x :: xs => by
    unfold mapE
    rw [h x, mapE_shift h xs]
    cases f x with
    | error e => rfl
    | ok y =>
      cases mapE f xs with
      | error e => rfl
      | ok ys => simp [Except.map, shiftAll]

theorem createFields_shift {d : Int} {f g : FDef → Except Err PTree}
    (h : ∀ x, g x = (f x).map (PTree.shift d)) :
    ∀ xs done, createFields g done xs = (createFields f done xs).map (shiftAll d)
  | [], _ => by simp [createFields, Except.map, shiftAll]
  | x :: xs, done => by
    unfold createFields
    rw [h x, createFields_shift h xs]
    cases f x with
    | error e => rfl
    | ok y =>
      simp only [Except.map]
      split
      · rfl
      · cases createFields f (x.name :: done) xs with
        | error e => rfl
        | ok ys => simp [shiftAll]

theorem create_shift {T : Types} (d : Int) : ∀ (n : Nat) (name : Option Str) (u : Uuid) (a : Int) (fl : Flags),
    create T n name u (a + d) fl = (create T n name u a fl).map (PTree.shift d) := by
  intro n
  induction n with
  | zero => intros; rfl
  | succ n ih =>
    intro name u a fl
    rw [create, create]
    cases hT : T u with
    | none => rfl
    | some df =>
      cases df with
      | simple l =>
        simp only
        repeat' split
        all_goals first | rfl | simp [Except.map, PTree.shift]
      | array item isz count s =>
        simp only
        have e := mapE_shift (d := d)
          (f := fun (i : Nat) => create T n (some (itemName i)) item (a + i * isz) fl)
          (g := fun (i : Nat) => create T n (some (itemName i)) item (a + d + i * isz) fl)
          (fun i => by
            rw [← ih]; congr 1; omega) (List.range count)
        rw [e]
        cases mapE (fun (i : Nat) => create T n (some (itemName i)) item (a + i * isz) fl) (List.range count) <;>
        repeat' split
        all_goals simp_all [Except.map, PTree.shift]
      | struct fds =>
        simp only
        have e := createFields_shift (d := d)
          (f := fun fd => create T n (some fd.name) fd.uuid (a + fd.offset)
              ⟨fd.flags.view, fd.flags.state, fd.flags.input || fl.input, fd.flags.output || fl.output⟩)
          (g := fun fd => create T n (some fd.name) fd.uuid (a + d + fd.offset)
              ⟨fd.flags.view, fd.flags.state, fd.flags.input || fl.input, fd.flags.output || fl.output⟩)
          (fun fd => by
            rw [← ih]; congr 1; omega) fds []
        rw [e]
        cases createFields (fun fd => create T n (some fd.name) fd.uuid (a + fd.offset)
              ⟨fd.flags.view, fd.flags.state, fd.flags.input || fl.input, fd.flags.output || fl.output⟩) [] fds <;>
        repeat' split
        all_goals simp_all [Except.map, PTree.shift]

mutual
theorem store_shift (m : Memory) (d : Int) : ∀ t : PTree, (t.shift d).store m = t.store (fun y => m (y + d))
  | .simple l a fl => by
    simp only [PTree.shift, PTree.store]
    split
    · unfold read; apply List.map_congr_left; intro i _; congr 1; omega
    · rfl
  | .sarray l a isz count fl => by
    simp only [PTree.shift, PTree.store]
    split
    · unfold read; apply List.map_congr_left; intro i _; congr 1; omega
    · rfl
  | .array ts fl => by simp only [PTree.shift, PTree.store, storeAll_shift m d ts]
  | .struct ns ts fl => by simp only [PTree.shift, PTree.store, storeAll_shift m d ts]
theorem storeAll_shift (m : Memory) (d : Int) : ∀ ts : List PTree,
    storeAll m (shiftAll d ts) = storeAll (fun y => m (y + d)) ts
  | [] => rfl
  | t :: ts => by simp only [shiftAll, storeAll, store_shift m d t, storeAll_shift m d ts]
end

end Verif.Mem
