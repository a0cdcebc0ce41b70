import Verif.Pub.RequestLemmas

/-! Properties C54 and C55 of requests. -/
namespace Verif.Pub
open Verif.Any (Kind Fl Val Any Out getInt getF64 getString)
open Verif.Path (Str checkName)

/-! ### C54 -/

/-- C54. The parameters of an operation, flattened through arrays and structures, have pairwise
different names, provided the parameters, and the fields of each structure, have different
valid names. -/
theorem C54_names (ps : List (Str × Shape)) (L : List (Str × Uuid))
    (hn : (ps.map Prod.fst).Nodup) (hp : ∀ n ∈ ps.map Prod.fst, Plain n)
    (hs : ∀ p ∈ ps, p.2.Names) (h : flattenAll ps = some L) : (L.map Prod.fst).Nodup :=
  (flattenAll_from ps L hn hp hs h).2

/-- C54, look-up by name. Whatever calls were made, the index of the `i`-th parameter's name is
`i`, that of any other name (or of a null pointer) is -1; so two names never share an index. -/
theorem C54_index (R : Registry) (ps : List (Str × Uuid)) (hn : (ps.map Prod.fst).Nodup)
    (cs : List RCall) :
    let r := (rrun (R, build ps) cs).2
    (∀ (i : Nat) (n : Str), (ps.map Prod.fst)[i]? = some n → r.index (some n) = i) ∧
    (∀ n, n ∉ ps.map Prod.fst → r.index (some n) = -1) ∧ r.index none = -1 ∧
    (∀ n m, r.index (some n) = r.index (some m) → r.index (some n) ≠ -1 → n = m) := by
  intro r
  have hof : r.Of ps := of_rrun cs (s := (R, build ps)) (of_build hn)
  refine ⟨fun i n h => (index_of hn hof n).1 i h, fun n h => (index_of hn hof n).2 h, rfl, ?_⟩
  intro n m h hne
  by_cases h1 : n ∈ ps.map Prod.fst
  · by_cases h2 : m ∈ ps.map Prod.fst
    · obtain ⟨i, hi⟩ := List.getElem?_of_mem h1
      obtain ⟨j, hj⟩ := List.getElem?_of_mem h2
      rw [(index_of hn hof n).1 i hi, (index_of hn hof m).1 j hj] at h
      have : i = j := by omega
      subst this
      rw [hi] at hj
      simpa using hj
    · rw [(index_of hn hof m).2 h2] at h
      exact absurd h hne
  · exact absurd ((index_of hn hof n).2 h1) hne

/-- C54, independence. In any request, setting a parameter makes that parameter return the
value set and leaves every other parameter, the return value and the names as they are; a call
that raises an exception changes nothing. -/
theorem C54_set (R : Registry) (r : Req) (i : Int) (v : Any) :
    ((r.set R i v).2 = .ok →
      (r.set R i v).1.get i = some v ∧
      (∀ j, j ≠ i → (r.set R i v).1.get j = r.get j) ∧
      (r.set R i v).1.ret = r.ret ∧
      ∀ n, (r.set R i v).1.index n = r.index n) ∧
    ((r.set R i v).2 ≠ .ok → (r.set R i v).1 = r) ∧
    ((r.set R i v).2 = .invalidParameterIndex ↔ i < 0 ∨ (r.values.length : Int) ≤ i) := by
  refine ⟨fun hok => ?_, fun hne => ?_, ?_⟩
  · rcases set_cases R r i v with ⟨_, h⟩ | ⟨k, rfl, w, u, t, hk, _, _, he⟩
    · exact absurd hok h
    · rw [he]
      obtain ⟨hlt, _⟩ := List.getElem?_eq_some_iff.1 hk
      refine ⟨?_, ?_, rfl, fun _ => rfl⟩
      · rw [get_ofNat]
        simp [List.getElem?_set_self hlt]
      · intro j hj
        unfold Req.get
        simp only [List.length_set]
        split
        · rfl
        · rw [List.getElem?_set_ne (by omega)]
  · rcases set_cases R r i v with ⟨h, _⟩ | ⟨k, rfl, w, u, t, hk, _, _, he⟩
    · exact h
    · rw [he] at hne; exact absurd rfl hne
  · unfold Req.set
    split
    · rename_i h
      simp only [true_iff]; omega
    · rename_i h
      constructor
      · intro hh
        exfalso
        revert hh
        split
        · simp
        · split
          · simp
          · split
            · simp
            · simp
            · split <;> simp
            · simp
      · intro hh; omega

/-- C54, the return value: setting it changes nothing else; a call that raises an exception
changes nothing; without a return parameter both accessors raise `VoidOperation`. -/
theorem C54_return (R : Registry) (r : Req) (u : Option Uuid) (v : Any) :
    ((r.setReturn R u v).2 = .ok →
      (r.setReturn R u v).1.getReturn u = some v ∧
      (∀ j, (r.setReturn R u v).1.get j = r.get j) ∧
      ∀ n, (r.setReturn R u v).1.index n = r.index n) ∧
    ((r.setReturn R u v).2 ≠ .ok → (r.setReturn R u v).1 = r) ∧
    ((r.setReturn R none v).2 = .voidOperation ∧ r.getReturn none = none) := by
  refine ⟨fun hok => ?_, fun hne => ?_, rfl, rfl⟩
  · rcases setReturn_cases R r u v with ⟨_, h⟩ | ⟨u', t, rfl, _, _, he⟩
    · exact absurd hok h
    · rw [he]; exact ⟨rfl, fun _ => rfl, fun _ => rfl⟩
  · rcases setReturn_cases R r u v with ⟨h, _⟩ | ⟨u', t, rfl, _, _, he⟩
    · exact h
    · rw [he] at hne; exact absurd rfl hne

/-- C54, no undefined behaviour in a request of registered types with different names. -/
theorem C54_defined (R : Registry) (ps : List (Str × Uuid)) (hn : (ps.map Prod.fst).Nodup)
    (cs : List RCall) (i : Int) (v : Any)
    (hreg : ∀ p ∈ ps, ∃ t, getType (rrun (R, build ps) cs).1 p.2 = some t ∧ isValid t v ≠ .ub) :
    ((rrun (R, build ps) cs).2.set (rrun (R, build ps) cs).1 i v).2 ≠ .ub := by
  have hof : (rrun (R, build ps) cs).2.Of ps := of_rrun cs (s := (R, build ps)) (of_build hn)
  generalize rrun (R, build ps) cs = s at *
  obtain ⟨R, r⟩ := s
  simp only at *
  have hlen : r.values.length = ps.length := by
    have := congrArg List.length hof.types; simpa using this
  unfold Req.set
  split
  · simp
  · rename_i hi
    have hlt : i.toNat < ps.length := by omega
    have hu : r.values[i.toNat]?.map Prod.snd = some ps[i.toNat].2 := by
      rw [← List.getElem?_map, hof.types]; simp [hlt]
    split
    · rename_i h; rw [h] at hu; simp at hu
    · rename_i w u h
      rw [h] at hu
      simp only [Option.map_some, Option.some.injEq] at hu
      obtain ⟨t, ht, hv⟩ := hreg _ (List.getElem_mem hlt)
      rw [hu, ht]
      simp only
      split
      · simp
      · rename_i hub; exact absurd hub hv
      · rw [if_pos]
        · simp
        · rw [hof.indexes, List.any_eq_true]
          exact ⟨(ps[i.toNat].1, i.toNat), List.mem_mapIdx.2 ⟨i.toNat, hlt, rfl⟩, by
            simp; omega⟩
      · simp

/-! ### C55, specification -/

/-- The order of the extended real line; NaN is not in it. -/
inductive FlLe : Fl → Fl → Prop
  | fin {a b : Rat} : a ≤ b → FlLe (.fin a) (.fin b)
  | bot {x : Fl} : x ≠ .nan → FlLe (.inf true) x
  | top {x : Fl} : x ≠ .nan → FlLe x (.inf false)

/-- A value is of the type: of its primitive kind and within its range, among its literals,
not longer than its length. -/
def Fits : TypeDef → Any → Prop
  | .primitive k, a => a.type = k
  | .integer k lo hi, a => a.type = k ∧ ∃ v, a.value = .int v ∧ lo ≤ v ∧ v ≤ hi
  | .float k lo hi loInc hiInc, a => a.type = k ∧ ∃ x, a.value = .float x ∧
      FlLe lo x ∧ (loInc = false → x ≠ lo) ∧ FlLe x hi ∧ (hiInc = false → x ≠ hi)
  | .string len, a => a.type = .String8 ∧
      (a.value = .str none ∨ ∃ l, a.value = .str (some l) ∧ (l.length : Int) ≤ len)
  | .enumeration k lits, a => a.type = k ∧ ∃ v, a.value = .int v ∧ v ∈ lits.map Prod.fst
  | .array .., a | .struct _, a | .cls .., a => a.type = .None

/-- Neither the value nor the bounds of a floating point type are NaN; the length of a string
type is not negative. -/
def Regular : TypeDef → Any → Prop
  | .float _ lo hi _ _, a => lo ≠ .nan ∧ hi ≠ .nan ∧ a.value ≠ .float .nan
  | .string len, _ => 0 ≤ len
  | _, _ => True

def I64 (v : Int) : Prop := -9223372036854775808 ≤ v ∧ v ≤ 9223372036854775807
def I32 (v : Int) : Prop := -2147483648 ≤ v ∧ v ≤ 2147483647

/-- The arguments of a call are within their C++ types (`Int64`, `Int32`). -/
def Op.Ok : Op → Prop
  | .addInteger _ _ lo hi _ => I64 lo ∧ I64 hi
  | .addString _ _ len => I64 len
  | .addLiteral _ _ v => I32 v
  | _ => True

/-- What the constructors of the types guarantee. -/
def TypeOk : TypeDef → Prop
  | .float k .. => k = .Float32 ∨ k = .Float64
  | .integer k lo hi =>
      k ∈ [Kind.Int8, .Int16, .Int32, .Int64, .UInt8, .UInt16, .UInt32, .UInt64] ∧ I64 lo ∧ I64 hi
  | .enumeration k lits => k ∈ [Kind.Int8, .Int16, .Int32, .Int64] ∧ ∀ l ∈ lits, I32 l.1
  | .string len => I64 len
  | _ => True

/-! ### C55, lemmas -/

theorem flLe_iff (a b : Fl) : flLe a b = true ↔ FlLe a b := by
  constructor
  · intro h
    cases a with
    | fin a => cases b with
      | fin b => exact .fin (by simpa [flLe] using h)
      | inf n => cases n <;> simp [flLe] at h; exact .top (by simp)
      | nan => simp [flLe] at h
    | inf n => cases n <;> cases b with
      | fin b => simp [flLe] at h <;> exact .bot (by simp)
      | inf m => cases m <;> simp [flLe] at h <;> first | exact .bot (by simp) | exact .top (by simp)
      | nan => simp [flLe] at h
    | nan => cases b <;> simp [flLe] at h
  · intro h
    cases h with
    | fin h => simpa [flLe] using h
    | bot h => cases b with
      | nan => exact absurd rfl h
      | _ => simp [flLe]
    | top h => cases a with
      | nan => exact absurd rfl h
      | _ => simp [flLe]

/-- IEEE `<` on the extended reals is the strict order. -/
theorem flLt_false {a b : Fl} (ha : a ≠ .nan) (hb : b ≠ .nan) :
    flLt a b = false ↔ FlLe b a := by
  rw [← flLe_iff]
  cases a with
  | nan => exact absurd rfl ha
  | fin a => cases b with
    | nan => exact absurd rfl hb
    | fin b => simp [flLt, flLe, Rat.not_lt]
    | inf m => cases m <;> simp [flLt, flLe]
  | inf n => cases b with
    | nan => exact absurd rfl hb
    | fin b => cases n <;> simp [flLt, flLe]
    | inf m => cases n <;> cases m <;> simp [flLt, flLe]

theorem flLe_false {a b : Fl} (ha : a ≠ .nan) (hb : b ≠ .nan) :
    flLe a b = false ↔ FlLe b a ∧ a ≠ b := by
  rw [← flLe_iff]
  cases a with
  | nan => exact absurd rfl ha
  | fin a => cases b with
    | nan => exact absurd rfl hb
    | fin b =>
      simp only [flLe, decide_eq_false_iff_not, Rat.not_le, decide_eq_true_eq, ne_eq,
        Fl.fin.injEq]
      constructor
      · intro h; exact ⟨Rat.le_of_lt h, fun e => by subst e; exact absurd h (Rat.lt_irrefl)⟩
      · intro ⟨h1, h2⟩
        exact Rat.lt_of_le_of_ne h1 (fun e => h2 e.symm)
    | inf m => cases m <;> simp [flLe]
  | inf n => cases b with
    | nan => exact absurd rfl hb
    | fin b => cases n <;> simp [flLe]
    | inf m => cases n <;> cases m <;> simp [flLe]

theorem range_i64 {v : Int} : Verif.Any.ITy.Range .i64 v ↔ I64 v := Iff.rfl
theorem range_i32 {v : Int} : Verif.Any.ITy.Range .i32 v ↔ I32 v := Iff.rfl

/-- `isValid` never is undefined, and accepts exactly the values of the type. -/
theorem isValid_iff {t : TypeDef} {a : Any} (ht : TypeOk t) (ha : a.Ok) (hr : Regular t a) :
    (isValid t a = .ok true ↔ Fits t a) ∧ isValid t a ≠ .ub := by
  unfold isValid
  by_cases hk : t.kind = a.type
  · rw [if_neg (by simp [hk])]
    obtain ⟨k, v⟩ := a
    simp only at hk
    cases t with
    | primitive k' => simp only [TypeDef.kind] at hk; simp [Fits, hk]
    | array => simp only [TypeDef.kind] at hk; simp [Fits, ← hk]
    | struct => simp only [TypeDef.kind] at hk; simp [Fits, ← hk]
    | cls => simp only [TypeDef.kind] at hk; simp [Fits, ← hk]
    | integer k' lo hi =>
      simp only [TypeDef.kind] at hk
      subst hk
      obtain ⟨hk, hlo, hhi⟩ := ht
      have hi : k'.isInt := by
        simp only [List.mem_cons, List.not_mem_nil, or_false] at hk
        rcases hk with h | h | h | h | h | h | h | h <;> rw [h] <;> rfl
      obtain ⟨n, rfl, hn⟩ := Verif.Any.ok_int ha hi
      obtain ⟨h1, h2⟩ := Verif.Any.C50_get k' n .i64 hi hn
      by_cases hr : Verif.Any.ITy.Range .i64 n
      · rw [h1 hr]
        simp only [Out.map, Fits, Out.ok.injEq, Val.int.injEq, true_and]
        refine ⟨?_, by simp⟩
        constructor
        · intro h; refine ⟨n, rfl, ?_⟩; simp at h; exact h
        · rintro ⟨v, rfl, h⟩; simpa using h
      · rw [h2 hr]
        refine ⟨⟨by simp [Out.map], ?_⟩, by simp [Out.map]⟩
        rintro ⟨_, v, hv, h3, h4⟩
        cases hv
        exact absurd (range_i64.2 ⟨Int.le_trans hlo.1 h3, Int.le_trans h4 hhi.2⟩) hr
    | enumeration k' lits =>
      simp only [TypeDef.kind] at hk
      subst hk
      obtain ⟨hk, hl⟩ := ht
      have hi : k'.isInt := by
        simp only [List.mem_cons, List.not_mem_nil, or_false] at hk
        rcases hk with h | h | h | h <;> rw [h] <;> rfl
      obtain ⟨n, rfl, hn⟩ := Verif.Any.ok_int ha hi
      obtain ⟨h1, h2⟩ := Verif.Any.C50_get k' n .i32 hi hn
      by_cases hr : Verif.Any.ITy.Range .i32 n
      · rw [h1 hr]
        simp only [Out.map, Fits, Out.ok.injEq, Val.int.injEq, true_and]
        refine ⟨?_, by simp⟩
        constructor
        · intro h
          refine ⟨n, rfl, ?_⟩
          obtain ⟨l, hl, he⟩ := List.any_eq_true.1 h
          exact List.mem_map.2 ⟨l, hl, by simpa using he⟩
        · rintro ⟨v, rfl, h⟩
          obtain ⟨l, hl, he⟩ := List.mem_map.1 h
          exact List.any_eq_true.2 ⟨l, hl, by simpa using he⟩
      · rw [h2 hr]
        refine ⟨⟨by simp [Out.map], ?_⟩, by simp [Out.map]⟩
        rintro ⟨_, v, hv, h⟩
        cases hv
        obtain ⟨l, hm, rfl⟩ := List.mem_map.1 h
        exact absurd (range_i32.2 (hl l hm)) hr
    | string len =>
      simp only [TypeDef.kind] at hk
      subst hk
      cases v <;> simp only [Any.Ok, Kind.Range] at ha
      rename_i s
      simp only [Regular] at hr
      have hts : (toSize len : Int) = len := by
        unfold toSize
        have := ht.2
        have h2 : len % ((2 ^ 64 : Nat) : Int) = len :=
          Int.emod_eq_of_lt hr (by simp only [TypeOk, I64] at ht; omega)
        rw [h2]; omega
      simp only [getString, Out.map, Fits, true_and]
      cases s with
      | none => simp
      | some l =>
        simp only [Out.ok.injEq, Bool.not_eq_true', decide_eq_false_iff_not, Val.str.injEq,
          reduceCtorEq, Option.some.injEq, false_or]
        refine ⟨?_, by simp⟩
        constructor
        · intro h; exact ⟨l, rfl, by omega⟩
        · rintro ⟨l', rfl, h⟩; omega
    | float k' lo hi li hi' =>
      simp only [TypeDef.kind] at hk
      subst hk
      obtain ⟨hlo, hhi, hx⟩ := hr
      have : ∃ x, v = .float x ∧ getF64 ⟨k', v⟩ = .ok x := by
        rcases ht with rfl | rfl <;> cases v <;> simp only [Any.Ok] at ha <;>
          first | exact ⟨_, rfl, rfl⟩ | (simp [Kind.Range] at ha)
      obtain ⟨x, rfl, hg⟩ := this
      rw [hg]
      have hx' : x ≠ .nan := by rintro rfl; exact hx rfl
      simp only [Out.map, Fits, true_and, Out.ok.injEq, Bool.not_eq_true', Bool.or_eq_false_iff]
      refine ⟨?_, by simp⟩
      have e1 : (if li = true then flLt x lo else flLe x lo) = false ↔
          FlLe lo x ∧ (li = false → x ≠ lo) := by
        cases li
        · simp only [Bool.false_eq_true, if_false, flLe_false hx' hlo]; simp
        · simp only [if_true, flLt_false hx' hlo]; simp
      have e2 : (if hi' = true then flLt hi x else flLe hi x) = false ↔
          FlLe x hi ∧ (hi' = false → x ≠ hi) := by
        cases hi'
        · simp only [Bool.false_eq_true, if_false, flLe_false hhi hx']; simp [eq_comm]
        · simp only [if_true, flLt_false hhi hx']; simp
      rw [e1, e2]
      constructor
      · rintro ⟨⟨h1, h2⟩, h3, h4⟩; exact ⟨x, rfl, h1, h2, h3, h4⟩
      · rintro ⟨y, hy, h1, h2, h3, h4⟩; cases hy; exact ⟨⟨h1, h2⟩, h3, h4⟩
  · rw [if_pos hk]
    refine ⟨⟨by simp, fun h => ?_⟩, by simp⟩
    exfalso
    apply hk
    cases t <;> simp only [Fits] at h <;> simp only [TypeDef.kind] <;>
      first | exact h.symm | exact h.1.symm

theorem kind_of_valid {t : TypeDef} {a : Any} (h : isValid t a = .ok true) :
    a.type = t.kind := by
  unfold isValid at h
  split at h
  · cases h
  · rename_i hk; simpa using Eq.symm (by simpa using hk)

theorem typeOk_initial : ∀ e ∈ initial, TypeOk e.type := by
  intro e he
  simp only [initial, List.mem_append, List.mem_map, predefined] at he
  rcases he with ⟨k, _, rfl⟩ | he
  · simp [TypeOk]
  · simp only [List.mem_cons, List.not_mem_nil, or_false] at he
    have lits : ∀ ls : List (Int × Str), (∀ l ∈ ls, 0 ≤ l.1 ∧ l.1 ≤ 100) → ∀ l ∈ ls, I32 l.1 := by
      intro ls h l hl
      have := h l hl
      constructor <;> omega
    rcases he with rfl | rfl | rfl | rfl | rfl | rfl | rfl | rfl | rfl <;>
      first
      | exact ⟨by simp, lits _ (by decide)⟩
      | exact ⟨by simp, by constructor <;> omega, by constructor <;> omega⟩

theorem typeOk_step {R : Registry} (hR : ∀ u t, getType R u = some t → TypeOk t) {op : Op}
    (ho : op.Ok) : ∀ u t, getType (step R op).1 u = some t → TypeOk t := by
  intro u t h
  by_cases ha : op.adds = true
  · by_cases hn : (step R op).2 = none
    · obtain ⟨hnone, n, t0, he⟩ := (C53_failed R op).2 ha hn
      obtain ⟨t1, h1, hask⟩ := C53_added R op ha hn
      cases h0 : getType R u with
      | some t' =>
        rw [he, getType_append h0] at h
        cases h
        exact hR _ _ h0
      | none =>
        have hu : u = op.target := by
          rw [he] at h
          simp only [getType, Option.map_eq_none_iff] at h0
          simp only [getType, List.find?_append, h0, Option.none_or, List.find?_cons,
            List.find?_nil] at h
          split at h
          · rename_i hh; simpa using Eq.symm (by simpa using hh)
          · simp at h
        subst hu
        rw [h1] at h
        cases h
        cases op <;> simp only [Op.asks, Op.adds, Bool.false_eq_true, Op.Ok] at hask ha ho
        · obtain ⟨rfl, hk⟩ := hask; exact hk
        · obtain ⟨rfl, hk⟩ := hask; exact ⟨hk, ho⟩
        · obtain ⟨k, rfl, hk⟩ := hask
          refine ⟨?_, by simp⟩
          simp only [List.mem_cons, Prod.mk.injEq, List.not_mem_nil, or_false] at hk
          rcases hk with h | h | h | h <;> simp [h.2]
        · subst hask; trivial
        · subst hask; exact ho
        · subst hask; trivial
        · subst hask; trivial
    · rw [(C53_failed R op).1 hn] at h
      exact hR _ _ h
  · cases op <;> simp only [Op.adds, not_true] at ha
    case addLiteral v n x =>
      simp only [step] at h
      split at h
      · rename_i k lits hk
        split at h
        · rename_i l2 hl
          rw [getType_modify] at h
          split at h
          · rename_i hu
            subst hu
            rw [hk] at h
            simp only [Option.map_some, Option.some.injEq] at h
            subst h
            have := hR _ _ hk
            unfold addLiteral at hl
            split at hl
            · cases hl
            · cases hl
              refine ⟨this.1, ?_⟩
              intro l hm
              rcases List.mem_append.1 hm with hm | hm
              · exact this.2 l hm
              · simp only [List.mem_singleton] at hm; subst hm; exact ho
          · exact hR _ _ h
        · exact hR _ _ h
      · exact hR _ _ h
    case addField v f =>
      simp only [step] at h
      split at h
      · rw [getType_modify] at h
        split at h
        · rename_i hk hu
          subst hu
          rw [hk] at h
          simp only [Option.map_some, Option.some.injEq] at h
          subst h; trivial
        · exact hR _ _ h
      · rw [getType_modify] at h
        split at h
        · rename_i hk hu
          subst hu
          rw [hk] at h
          simp only [Option.map_some, Option.some.injEq] at h
          subst h; trivial
        · exact hR _ _ h
      · exact hR _ _ h

theorem typeOk_run (ops : List Op) (ho : ∀ op ∈ ops, op.Ok) :
    ∀ {R : Registry}, (∀ u t, getType R u = some t → TypeOk t) →
      ∀ u t, getType (run R ops) u = some t → TypeOk t := by
  induction ops with
  | nil => intro R h; exact h
  | cons op ops ih =>
    intro R h
    exact ih (fun o hm => ho o (List.mem_cons_of_mem _ hm))
      (typeOk_step h (ho op (List.mem_cons_self ..)))

theorem typeOk_start : ∀ u t, getType initial u = some t → TypeOk t := by
  intro u t h
  obtain ⟨e, he, _, rfl⟩ := getType_some h
  exact typeOk_initial e he

/-- The later type accepts what the earlier one did. -/
theorem Grows.fits {t t' : TypeDef} {a : Any} (hg : Grows t t') (h : Fits t a) : Fits t' a := by
  cases t <;> cases t' <;> simp only [Grows] at hg <;> first | (cases hg; done) | skip
  case enumeration.enumeration =>
    obtain ⟨rfl, l, hl⟩ := hg
    obtain ⟨hk, v, hv, hm⟩ := h
    refine ⟨hk, v, hv, ?_⟩
    rw [← hl, List.map_append]
    exact List.mem_append_left _ hm
  case struct.struct => exact h
  case cls.cls => exact h
  all_goals (cases hg; exact h)

theorem Grows.regular {t t' : TypeDef} {a : Any} (hg : Grows t t') :
    Regular t' a → Regular t a := by
  intro h
  cases t <;> cases t' <;> simp only [Grows] at hg <;> first | (cases hg; done) | skip
  case enumeration.enumeration => trivial
  case struct.struct => trivial
  case cls.cls => trivial
  all_goals (cases hg; exact h)

theorem Grows.kind {t t' : TypeDef} (hg : Grows t t') : t'.kind = t.kind := by
  cases t <;> cases t' <;> simp only [Grows] at hg <;> first | (cases hg; done) | skip
  case enumeration.enumeration => exact hg.1.symm
  case struct.struct => rfl
  case cls.cls => rfl
  all_goals (cases hg; rfl)

/-! ### C55 -/

/-- The calls carry well formed values and arguments of their C++ types. -/
def RCall.Ok : RCall → Prop
  | .reg op => op.Ok
  | .set _ v => v.Ok
  | .setReturn _ v => v.Ok

/-- C55, the check of a single value: it is accepted if and only if it is a value of the type;
otherwise an exception is raised. Partial: values and bounds that are not NaN, and string types
whose length is not negative (`C55_fails`). -/
theorem C55_check_partial (ops : List Op) (ho : ∀ op ∈ ops, op.Ok) (u : Uuid) (t : TypeDef)
    (ht : getType (run initial ops) u = some t) (a : Any) (ha : a.Ok) (hr : Regular t a) :
    (isValid t a = .ok true ↔ Fits t a) ∧
    (¬ Fits t a → isValid t a = .throw ∨ isValid t a = .ok false) := by
  obtain ⟨h1, h2⟩ := isValid_iff (typeOk_run ops ho typeOk_start u t ht) ha hr
  refine ⟨h1, fun h => ?_⟩
  cases hv : isValid t a with
  | throw => exact Or.inl rfl
  | ub => exact absurd hv h2
  | ok b => cases b with
    | false => exact Or.inr rfl
    | true => exact absurd (h1.1 hv) h

/-- C55. Whatever types are registered, request is built and calls are made, in whatever order,
a parameter of the request either has no value or has a value of the primitive kind of its type
and of its type as it is now. Partial: not for NaN nor for string types of negative length
(`C55_fails`), but of the right kind in any case. -/
theorem C55_partial (ops : List Op) (ps : List (Str × Uuid)) (hn : (ps.map Prod.fst).Nodup)
    (cs : List RCall) (ho : ∀ op ∈ ops, op.Ok) (hc : ∀ c ∈ cs, c.Ok)
    (i : Nat) (n : Str) (u : Uuid) (t : TypeDef) (v : Any)
    (hp : ps[i]? = some (n, u))
    (ht : getType (rrun (run initial ops, build ps) cs).1 u = some t)
    (hv : (rrun (run initial ops, build ps) cs).2.get i = some v) :
    v = noValue ∨ (v.type = t.kind ∧ (Regular t v → Fits t v)) := by
  -- the invariant of the calls
  suffices H : ∀ (cs : List RCall) (s : Registry × Req), (∀ c ∈ cs, c.Ok) →
      (∀ u t, getType s.1 u = some t → TypeOk t) → s.2.Of ps →
      (∀ v u, (v, u) ∈ s.2.values → v = noValue ∨
        ∃ t, getType s.1 u = some t ∧ v.type = t.kind ∧ (Regular t v → Fits t v)) →
      (∀ v u, (v, u) ∈ (rrun s cs).2.values → v = noValue ∨
        ∃ t, getType (rrun s cs).1 u = some t ∧ v.type = t.kind ∧ (Regular t v → Fits t v)) by
    have hof : (rrun (run initial ops, build ps) cs).2.Of ps :=
      of_rrun cs (s := (run initial ops, build ps)) (of_build hn)
    have hbuild : ∀ v u, (v, u) ∈ (build ps).values → v = noValue := by
      intro v u h
      rw [(build_spec ps hn).1] at h
      obtain ⟨p, _, hp⟩ := List.mem_map.1 h
      cases hp; rfl
    have := H cs (run initial ops, build ps) hc (typeOk_run ops ho typeOk_start) (of_build hn)
      (fun v u h => Or.inl (hbuild v u h))
    rw [get_ofNat] at hv
    obtain ⟨⟨v', u'⟩, hg, rfl⟩ := Option.map_eq_some_iff.1 hv
    have hu : u' = u := by
      have h1 := congrArg (fun l => l[i]?) hof.types
      simp only [List.getElem?_map, hg, hp, Option.map_some, Option.some.injEq] at h1
      exact h1
    subst hu
    rcases this v' u' (List.mem_of_getElem? hg) with h | ⟨t', ht', h⟩
    · exact Or.inl h
    · rw [ht] at ht'
      cases ht'
      exact Or.inr h
  intro cs
  induction cs with
  | nil => intro s _ _ _ h; exact h
  | cons c cs ih =>
    intro s hc hty hof h
    have hcc := hc c (List.mem_cons_self ..)
    refine ih (rstep s c) (fun d hd => hc d (List.mem_cons_of_mem _ hd)) ?_ (of_rstep hof c) ?_
    · cases c with
      | reg op => exact typeOk_step hty hcc
      | set i v => exact hty
      | setReturn u v => exact hty
    · intro v u hm
      cases c with
      | reg op =>
        rcases h v u hm with h | ⟨t, ht, hk, hf⟩
        · exact Or.inl h
        · obtain ⟨t', ht', hg, _⟩ := step_grows s.1 op u t ht
          exact Or.inr ⟨t', ht', hk.trans hg.kind.symm, fun hr => hg.fits (hf (hg.regular hr))⟩
      | set i w =>
        simp only [rstep] at hm ⊢
        rcases set_cases s.1 s.2 i w with ⟨he, _⟩ | ⟨k, rfl, x, u0, t, hk, ht, hval, he⟩
        · rw [he] at hm; exact h v u hm
        · rw [he] at hm
          simp only at hm
          rcases List.mem_or_eq_of_mem_set hm with hm | hm
          · exact h v u hm
          · cases hm
            exact Or.inr ⟨t, ht, kind_of_valid hval,
              fun hr => (isValid_iff (hty _ _ ht) hcc hr).1.1 hval⟩
      | setReturn u' w =>
        simp only [rstep] at hm ⊢
        rcases setReturn_cases s.1 s.2 u' w with ⟨he, _⟩ | ⟨u1, t, _, _, _, he⟩ <;>
          (rw [he] at hm; exact h v u hm)

/-- C55, the return value: it is stored only if it is of the type of the return parameter. -/
theorem C55_return_partial (ops : List Op) (ho : ∀ op ∈ ops, op.Ok) (r : Req) (u : Uuid) (t : TypeDef)
    (v : Any) (hv : v.Ok) (ht : getType (run initial ops) u = some t) (hr : Regular t v) :
    (r.setReturn (run initial ops) (some u) v).2 = .ok ↔ Fits t v := by
  obtain ⟨h1, _⟩ := isValid_iff (typeOk_run ops ho typeOk_start u t ht) hv hr
  rw [← h1]
  simp only [Req.setReturn, ht]
  split <;> simp_all

/-- C55 fails for NaN, which every floating point type accepts, and for string types of
negative length, which accept every string. -/
theorem C55_fails :
    (∃ ops u t v, getType (run initial ops) u = some t ∧ Any.Ok v ∧
      ((build [("x".toList, u)]).set (run initial ops) 0 v).2 = .ok ∧
      ((build [("x".toList, u)]).set (run initial ops) 0 v).1.get 0 = some v ∧
      v.value = .float .nan ∧ ¬ Fits t v) ∧
    (∃ ops u t v, getType (run initial ops) u = some t ∧ Any.Ok v ∧
      ((build [("x".toList, u)]).set (run initial ops) 0 v).2 = .ok ∧
      t = .string (-1) ∧ ¬ Fits t v) := by
  refine ⟨⟨[.addFloat 100 (some "F".toList) (.fin 0) (.fin 1) true true .Float64], 100, _,
      ⟨.Float64, .float .nan⟩, rfl, trivial, by decide, by decide, rfl, ?_⟩,
    ⟨[.addString 100 (some "S".toList) (-1)], 100, _, ⟨.String8, .str (some [65])⟩, rfl, trivial,
      by decide, rfl, ?_⟩⟩
  · rintro ⟨_, x, hx, h, _⟩
    cases hx
    cases h
  · rintro ⟨_, h | ⟨l, hl, h⟩⟩
    · cases h
    · cases hl; simp at h

/-! ### The hypotheses are met -/

/-- An operation with an integer and an array of two structures. -/
def demoShape : List (Str × Shape) :=
  [("n".toList, .simple 100),
   ("a".toList, .array 2 (.struct [("x".toList, .simple 100), ("y".toList, .simple 101)]))]

example : flattenAll demoShape =
    some [("n".toList, 100), ("a[0].x".toList, 100), ("a[0].y".toList, 101),
      ("a[1].x".toList, 100), ("a[1].y".toList, 101)] := by decide
example : (demoShape.map Prod.fst).Nodup ∧ (∀ n ∈ demoShape.map Prod.fst, Plain n) ∧
    ∀ p ∈ demoShape, p.2.Names := by
  refine ⟨by decide, ?_, ?_⟩
  · intro n hn; simp only [demoShape, List.map_cons, List.map_nil, List.mem_cons,
      List.not_mem_nil, or_false] at hn
    rcases hn with rfl | rfl <;> exact ⟨by decide, by decide⟩
  · intro p hp
    simp only [demoShape, List.mem_cons, List.not_mem_nil, or_false] at hp
    rcases hp with rfl | rfl
    · trivial
    · refine ⟨by decide, ?_, trivial, trivial, trivial⟩
      intro n hn
      simp only [List.map_cons, List.map_nil, List.mem_cons, List.not_mem_nil, or_false] at hn
      rcases hn with rfl | rfl <;> exact ⟨by decide, by decide⟩

/-- A small integer type and a request with two parameters: 10 is accepted, 11 refused. -/
def demoReq : Registry × Req :=
  rrun (run initial demoOps, build [("n".toList, 100), ("m".toList, 102)])
    [.set 0 ⟨.Int32, .int 10⟩, .set 0 ⟨.Int32, .int 11⟩, .set 1 ⟨.Int32, .int 2⟩,
     .reg (.addLiteral 102 "Two".toList 2), .set 1 ⟨.Int32, .int 2⟩, .set 0 ⟨.Int64, .int 1⟩]

example : demoReq.2.get 0 = some ⟨.Int32, .int 10⟩ ∧ demoReq.2.get 1 = some ⟨.Int32, .int 2⟩ ∧
    demoReq.2.get 2 = none ∧ demoReq.2.index (some "m".toList) = 1 ∧
    demoReq.2.index (some "k".toList) = -1 := by decide
example : (demoReq.2.set demoReq.1 0 ⟨.Int32, .int 11⟩).2 = .invalidParameterValue ∧
    (demoReq.2.set demoReq.1 0 ⟨.Int64, .int 1⟩).2 = .invalidAnyType ∧
    (demoReq.2.set demoReq.1 2 ⟨.Int32, .int 1⟩).2 = .invalidParameterIndex := by decide
example : Fits (.integer .Int32 0 10) ⟨.Int32, .int 10⟩ ∧
    ¬ Fits (.integer .Int32 0 10) ⟨.Int32, .int 11⟩ := by
  refine ⟨⟨rfl, 10, rfl, by decide, by decide⟩, ?_⟩
  rintro ⟨_, v, hv, _, h⟩; cases hv; omega

end Verif.Pub
