import Verif.Mem.Access
import Verif.Mem.LayoutProps
import Verif.Mem.FloatProps

/-! Lemmas on reading and writing published fields. -/
namespace Verif.Mem
open Verif.Any (Kind Fl Val Any Out ITy wrap roundBits getInt getBool getChar getString getF32 getF64)
open Verif.Float (f32 f64)
open Verif.Field (coerce)

/-! ### Specification -/

/-- A value a published variable of a kind can have: an integer in the range of the kind, a number
of the floating point format, characters of one byte, a string of characters other than the
terminator. -/
def Typed : Kind → Val → Prop
  | .None, v => v = .none
  | .Bool, v => ∃ b, v = .bool b
  | .Char8, v => ∃ c, v = .char c ∧ c < 256
  | .Float32, v => ∃ x, v = .float x ∧ ∀ q, x = .fin q → Float.Float32 q
  | .Float64, v => ∃ x, v = .float x ∧ ∀ q, x = .fin q → Float.Float64 q
  | .String8, v => ∃ s, v = .str s ∧ ∀ cs, s = some cs → ∀ c ∈ cs, 0 < c ∧ c < 256
  | k, v => ∃ z, v = .int z ∧ k.Range z

/-! ### Memory -/

theorem length_read (m : Memory) (a : Int) (n : Nat) : (read m a n).length = n := by simp [read]

theorem getElem?_read (m : Memory) (a : Int) (n i : Nat) :
    (read m a n)[i]? = if i < n then some (m (a + i)) else none := by
  unfold read
  rw [List.getElem?_map]
  by_cases h : i < n
  · rw [if_pos h, List.getElem?_range h]; rfl
  · rw [if_neg h, List.getElem?_eq_none (by simp; omega)]; rfl

theorem write_in {m : Memory} {a : Int} {bs : List Byte} {i : Nat} {b : Byte} (h : bs[i]? = some b) :
    write m a bs (a + i) = b := by
  have hi : i < bs.length := (List.getElem?_eq_some_iff.1 h).1
  unfold write
  rw [if_pos (by omega)]
  have : (a + i - a).toNat = i := by omega
  rw [this, List.getD_eq_getElem?_getD, h]; rfl

theorem write_out {m : Memory} {a x : Int} {bs : List Byte} (h : x < a ∨ a + bs.length ≤ x) :
    write m a bs x = m x := by
  unfold write; rw [if_neg (by omega)]

theorem read_congr {m m' : Memory} {a : Int} {n : Nat}
    (h : ∀ x, a ≤ x → x < a + n → m x = m' x) : read m a n = read m' a n := by
  unfold read
  apply List.map_congr_left
  intro i hi
  rw [List.mem_range] at hi
  exact h _ (by omega) (by omega)

theorem read_write (m : Memory) (a : Int) (bs : List Byte) {n : Nat} (h : bs.length ≤ n) :
    read (write m a bs) a n = bs ++ read m (a + bs.length) (n - bs.length) := by
  apply List.ext_getElem?
  intro i
  rw [getElem?_read]
  by_cases h1 : i < bs.length
  · rw [if_pos (by omega), List.getElem?_append_left h1, List.getElem?_eq_getElem h1]
    congr 1
    exact write_in (List.getElem?_eq_getElem h1)
  · rw [List.getElem?_append_right (by omega), getElem?_read]
    by_cases h2 : i < n
    · rw [if_pos h2, if_pos (by omega), write_out (by omega)]
      congr 2; omega
    · rw [if_neg h2, if_neg (by omega)]

theorem read_write_eq (m : Memory) (a : Int) (bs : List Byte) {n : Nat} (h : bs.length = n) :
    read (write m a bs) a n = bs := by
  subst h
  rw [read_write m a bs (Nat.le_refl _)]
  simp [read]

theorem length_leBytes : ∀ (w n : Nat), (leBytes w n).length = w
  | 0, _ => rfl
  | w + 1, n => by simp [leBytes, length_leBytes w]

theorem leNat_leBytes : ∀ (w n : Nat), leNat (leBytes w n) = n % 256 ^ w
  | 0, n => by simp [leBytes, leNat, Nat.mod_one]
  | w + 1, n => by
    simp only [leBytes, leNat, leNat_leBytes w]
    rw [BitVec.toNat_ofNat]
    have : 256 ^ (w + 1) = 256 * 256 ^ w := by rw [Nat.pow_succ, Nat.mul_comm]
    rw [this, Nat.mod_mul]

theorem cstring_append {s : List Nat} (h : ∀ c ∈ s, 0 < c ∧ c < 256) (rest : List Byte) :
    cstring (s.map (BitVec.ofNat 8) ++ 0 :: rest) = some s := by
  induction s with
  | nil => simp [cstring]
  | cons c s ih =>
    have hc := h c List.mem_cons_self
    have h1 : BitVec.ofNat 8 c ≠ 0 := by
      intro e
      have := congrArg BitVec.toNat e
      simp at this
      omega
    simp only [List.map_cons, List.cons_append, cstring, if_neg h1]
    rw [ih (fun x hx => h x (List.mem_cons_of_mem _ hx))]
    simp
    omega

/-! ### The values that a conversion gives -/

theorem round_float {p : Nat} {f : Float.Fmt} (hp : f.p = p) (h2 : 2 ≤ p) (hs : f.scale + 66 ≤ f.top + p)
    (hst : f.scale ≤ f.top)     (v : Int) (hv : v.natAbs ≤ 2 ^ 64) : f.Has (.fin ((roundBits p v : Int) : Rat)) := by
  -- an integer `m * 2 ^ e` with `m < 2 ^ p`
  have key : ∀ (b : Bool) (m e : Nat), m < 2 ^ p → e + f.scale ≤ f.top →
      f.Has (.fin ((((if b then -1 else 1) * (m * 2 ^ e : Nat) : Int)) : Rat)) := by
    intro b m e hm he
    refine ⟨b, m * 2 ^ (e + f.scale), ⟨m, e + f.scale, by rw [hp]; exact hm, he, rfl⟩, ?_⟩
    have hS := Float.two_pow_pos' f.scale
    unfold Float.Fmt.val
    have e1 : ((m * 2 ^ (e + f.scale) : Nat) : Rat) = ((m * 2 ^ e : Nat) : Rat) * ((2 ^ f.scale : Nat) : Rat) := by
      rw [Nat.pow_add, ← Nat.mul_assoc]; push_cast; rfl
    rw [e1, Rat.div_def, Rat.mul_assoc, ← Rat.div_def]
    have e2 : ((2 ^ f.scale : Nat) : Rat) / ((2 ^ f.scale : Nat) : Rat) = 1 := by
      rw [Rat.div_def, Rat.mul_inv_cancel]
      intro h; rw [h] at hS; exact Rat.lt_irrefl hS
    rw [e2, Rat.mul_one]
    cases b <;> push_cast <;> simp
  unfold roundBits
  simp only
  by_cases hn : v.natAbs < 2 ^ p
  · rw [if_pos hn]
    have := key (decide (v < 0)) v.natAbs 0 hn (by omega)
    have e : ((if decide (v < 0) = true then -1 else 1) * ((v.natAbs * 2 ^ 0 : Nat) : Int) : Int) = v := by
      by_cases h : v < 0 <;> simp [h] <;> omega
    rw [e] at this; exact this
  · rw [if_neg hn]
    have hpos : v.natAbs ≠ 0 := by
      have := Nat.two_pow_pos p; omega
    have hl : v.natAbs.log2 ≤ 64 := by
      have h1 := Nat.log2_self_le hpos
      have h2 : 2 ^ v.natAbs.log2 ≤ 2 ^ 64 := Nat.le_trans h1 hv
      exact (Nat.pow_le_pow_iff_right (by omega)).1 h2
    have hlt : v.natAbs < 2 ^ (v.natAbs.log2 + 1) := Nat.lt_log2_self
    have hpl : p ≤ v.natAbs.log2 + 1 := by
      have : 2 ^ p < 2 ^ (v.natAbs.log2 + 1) := by omega
      have := (Nat.pow_lt_pow_iff_right (a := 2) (by omega)).1 this
      omega
    have hq : v.natAbs / 2 ^ (v.natAbs.log2 + 1 - p) < 2 ^ p := by
      rw [Nat.div_lt_iff_lt_mul (Nat.two_pow_pos _), ← Nat.pow_add]
      have : p + (v.natAbs.log2 + 1 - p) = v.natAbs.log2 + 1 := by omega
      rw [this]; exact hlt
    generalize hee : v.natAbs.log2 + 1 - p = e at *
    have heq : e + 1 + f.scale ≤ f.top := by omega
    have fin : ∀ q' : Nat, q' ≤ 2 ^ p →
        f.Has (.fin ((((if v < 0 then -1 else 1) * (q' * 2 ^ e : Nat) : Int)) : Rat)) := by
      intro q' hq'
      have hb : ∀ x : Nat, ((if v < 0 then -1 else 1) * (x : Int) : Int) =
        (if decide (v < 0) = true then -1 else 1) * (x : Int) := by
        intro x; by_cases h : v < 0 <;> simp [h]
      rw [hb]
      rcases Nat.lt_or_ge q' (2 ^ p) with h | h
      · exact key _ _ _ h (by omega)
      · have hqe : q' = 2 ^ p := by omega
        have : q' * 2 ^ e = 2 ^ (p - 1) * 2 ^ (e + 1) := by
          rw [hqe, ← Nat.pow_add, ← Nat.pow_add]; congr 1; omega
        rw [this]
        exact key _ _ _ (Nat.pow_lt_pow_right (by omega) (by omega)) heq
    apply fin
    split <;> omega

theorem round24 {v : Int} (hv : v.natAbs ≤ 2 ^ 64) : Float.Float32 ((roundBits 24 v : Int) : Rat) :=
  (Float.float32_iff _).2 (round_float (f := f32) rfl (by decide) (by decide) (by decide) v hv)

theorem round53 {v : Int} (hv : v.natAbs ≤ 2 ^ 64) : Float.Float64 ((roundBits 53 v : Int) : Rat) :=
  (Float.float64_iff _).2 (round_float (f := f64) rfl (by decide) (by decide) (by decide) v hv)

theorem float64_of_float32 {q : Rat} (h : Float.Float32 q) : Float.Float64 q := by
  obtain ⟨m, e, hm, h1, h2, h3⟩ := h
  exact ⟨m, e, Nat.lt_trans hm (by decide), by omega, by omega, h3⟩

theorem range_abs {k : Kind} {z : Int} (h : k.Range z) : z.natAbs ≤ 2 ^ 64 := by
  cases k <;> simp only [Kind.Range] at h <;> first | (exact h.elim) | omega

theorem getInt_range {T : ITy} {a : Any} {z : Int} (h : Typed a.type a.value) (hg : getInt T a = .ok z) :
    T.Range z := by
  obtain ⟨k, v⟩ := a
  unfold getInt at hg
  cases hk : k.int with
  | none => simp [hk] at hg
  | some U =>
    simp only [hk] at hg
    have hz : ∃ z, v = .int z ∧ k.Range z := by
      cases k <;> simp [Kind.int] at hk <;> exact h
    obtain ⟨y, rfl, hy⟩ := hz
    simp only at hg
    have := Verif.Any.conv_ok (T := T) ((Verif.Any.Kind.range_iff hk y).1 hy) (Verif.Any.getTable_ok T k U hk)
    by_cases hr : T.Range y
    · rw [this.1 hr] at hg; simp at hg; subst hg; exact hr
    · rw [this.2 hr] at hg; simp at hg

theorem convFl_has {a : Any} {c : Verif.Any.Conv} {p : Nat} {x : Fl} (h : Typed a.type a.value)
    (hc : c = .float p ∨ c = .floatChecked p ∨ c = .reject) (hg : Verif.Any.convFl a c = .ok x) :
    ∃ v : Int, v.natAbs ≤ 2 ^ 64 ∧ x = .fin ((roundBits p v : Int) : Rat) := by
  obtain ⟨k, v⟩ := a
  unfold Verif.Any.convFl at hg
  cases hk : k.int with
  | none => simp [hk] at hg
  | some U =>
    simp only [hk] at hg
    have hz : ∃ z, v = .int z ∧ k.Range z := by
      cases k <;> simp [Kind.int] at hk <;> exact h
    obtain ⟨y, rfl, hy⟩ := hz
    simp only at hg
    refine ⟨y, range_abs hy, ?_⟩
    rcases hc with rfl | rfl | rfl
    · simp only [Verif.Any.conv] at hg
      cases hg; rfl
    · simp only [Verif.Any.conv] at hg
      cases hcf : Verif.Any.convertFloatInt p U y with
      | throw => simp [hcf, Out.map] at hg
      | ub => simp [hcf, Out.map] at hg
      | ok w =>
        simp only [hcf, Out.map] at hg
        cases hg
        unfold Verif.Any.convertFloatInt at hcf
        simp only at hcf
        split at hcf
        · split at hcf
          · cases hcf
          · cases hcf; rfl
        · cases hcf
    · simp [Verif.Any.conv] at hg

theorem narrow_has {x : Fl} : ∀ q, Float.narrow x = .fin q → Float.Float32 q := by
  intro q hq
  cases x with
  | nan => cases hq
  | inf b => cases hq
  | fin r =>
    rw [Float.float32_iff, ← hq]
    exact Float.round_has Float.ok32 r

theorem getF32_has {a : Any} {x : Fl} (h : Typed a.type a.value)
    (hg : getF32 Float.narrow a = .ok x) : ∀ q, x = .fin q → Float.Float32 q := by
  have base : ∀ c, c = Verif.Any.Conv.float 24 ∨ c = .floatChecked 24 ∨ c = .reject →
      Verif.Any.convFl a c = .ok x → ∀ q, x = .fin q → Float.Float32 q := by
    intro c hc h1 q hq
    obtain ⟨v, hv, rfl⟩ := convFl_has h hc h1
    cases hq
    exact round24 hv
  obtain ⟨k, v⟩ := a
  have tab : ∀ k, Verif.Any.getFloat32 k = .float 24 ∨ Verif.Any.getFloat32 k = .floatChecked 24 ∨
      Verif.Any.getFloat32 k = .reject := by
    intro k; cases k <;> simp [Verif.Any.getFloat32]
  unfold getF32 at hg
  split at hg
  · rename_i y h1 h2
    simp only at h1 h2
    subst h1 h2
    cases hg
    obtain ⟨z, hz, hq⟩ := h
    cases hz; exact hq
  · rename_i y h1 h2
    unfold Verif.Any.convertFloat64 at hg
    split at hg
    · cases hg
    · cases hg; exact narrow_has
  · exact base _ (tab _) hg

theorem getF64_has {a : Any} {x : Fl} (h : Typed a.type a.value)
    (hg : getF64 a = .ok x) : ∀ q, x = .fin q → Float.Float64 q := by
  have base : ∀ c, c = Verif.Any.Conv.float 53 ∨ c = .floatChecked 53 ∨ c = .reject →
      Verif.Any.convFl a c = .ok x → ∀ q, x = .fin q → Float.Float64 q := by
    intro c hc h1 q hq
    obtain ⟨v, hv, rfl⟩ := convFl_has h hc h1
    cases hq
    exact round53 hv
  obtain ⟨k, v⟩ := a
  have tab : ∀ k, Verif.Any.getFloat64 k = .float 53 ∨ Verif.Any.getFloat64 k = .floatChecked 53 ∨
      Verif.Any.getFloat64 k = .reject := by
    intro k; cases k <;> simp [Verif.Any.getFloat64]
  unfold getF64 at hg
  split at hg
  · rename_i y h1 h2
    simp only at h1 h2
    subst h1 h2
    cases hg
    obtain ⟨z, hz, hq⟩ := h
    cases hz; intro q hq'; exact float64_of_float32 (hq q hq')
  · rename_i y h1 h2
    simp only at h1 h2
    subst h1 h2
    cases hg
    obtain ⟨z, hz, hq⟩ := h
    cases hz; exact hq
  · exact base _ (tab _) hg

theorem map_ok {α β : Type} {f : α → β} {o : Out α} {b : β} (h : o.map f = .ok b) : ∃ a, o = .ok a ∧ f a = b := by
  cases o <;> simp [Out.map] at h ⊢
  exact h

/-- The value that is written has the kind of the field; a string is not longer than the buffer. -/
theorem coerce_typed {k : Kind} {len : Nat} {a : Any} {v : Val} (h : Typed a.type a.value)
    (hc : coerce Float.narrow k len a = .ok v) :
    Typed k v ∧ ∀ s, v = .str s → ∃ cs, s = some cs ∧ cs.length ≤ len := by
  have int : ∀ (T : ITy) (k : Kind), k.int = some T → (getInt T a).map Val.int = .ok v →
      (∃ z, v = .int z ∧ k.Range z) ∧ ∀ s, v = .str s → ∃ cs, s = some cs ∧ cs.length ≤ len := by
    intro T k hk hc
    obtain ⟨z, hz, rfl⟩ := map_ok hc
    exact ⟨⟨z, rfl, (Verif.Any.Kind.range_iff hk z).2 (getInt_range h hz)⟩, by simp⟩
  unfold coerce at hc
  cases k <;> simp only at hc
  case None => cases hc
  case Bool =>
    obtain ⟨z, hz, rfl⟩ := map_ok hc
    exact ⟨⟨z, rfl⟩, by simp⟩
  case Char8 =>
    obtain ⟨z, hz, rfl⟩ := map_ok hc
    refine ⟨⟨z, rfl, ?_⟩, by simp⟩
    unfold getChar at hz
    split at hz
    · rename_i c h1 h2
      rw [h1, h2] at h
      obtain ⟨c', he, hlt⟩ := h
      cases he; cases hz; exact hlt
    · cases hz
  case Float32 =>
    obtain ⟨z, hz, rfl⟩ := map_ok hc
    exact ⟨⟨z, rfl, getF32_has h hz⟩, by simp⟩
  case Float64 =>
    obtain ⟨z, hz, rfl⟩ := map_ok hc
    exact ⟨⟨z, rfl, getF64_has h hz⟩, by simp⟩
  case String8 =>
    obtain ⟨z, hz, rfl⟩ := map_ok hc
    refine ⟨⟨_, rfl, ?_⟩, ?_⟩
    · intro cs hcs c hmem
      cases hcs
      have hmem' := List.mem_of_mem_take hmem
      unfold getString at hz
      split at hz
      · rename_i s h1 h2
        rw [h1, h2] at h
        obtain ⟨s', he, hlt⟩ := h
        cases he; cases hz
        cases z with
        | none => simp at hmem'
        | some cs => exact hlt cs rfl c hmem'
      · cases hz
    · intro s hs
      cases hs
      exact ⟨_, rfl, by simp; omega⟩
  all_goals exact int _ _ rfl hc

/-! ### Encoding -/

theorem length_encode {l : Leaf} {v : Val} (h : Typed l.kind v)
    (hl : ∀ s, v = .str s → ∃ cs, s = some cs ∧ cs.length ≤ l.len.toNat) (hn : l.kind = .String8 → 0 ≤ l.len) :
    (encode l.kind v).length ≤ l.width := by
  obtain ⟨k, lits, len⟩ := l
  simp only at *
  cases k
  case String8 =>
    obtain ⟨s, rfl, hs⟩ := h
    obtain ⟨cs, rfl, hle⟩ := hl s rfl
    have := hn rfl
    simp [encode, Leaf.width]
    omega
  case None => cases h; simp [encode]
  all_goals (
    first
    | obtain ⟨z, rfl⟩ := h
    | obtain ⟨z, rfl, -⟩ := h
    simp [encode, Leaf.width, length_leBytes])

theorem getValue_congr {m m' : Memory} {l : Leaf} {a : Int}
    (h : ∀ x, a ≤ x → x < a + l.width → m x = m' x) : getValue m l a = getValue m' l a := by
  obtain ⟨k, lits, len⟩ := l
  have hr : ∀ n, n ≤ (Leaf.mk k lits len).width → read m a n = read m' a n := by
    intro n hn
    exact read_congr (fun x h1 h2 => h x h1 (by omega))
  have hb : 1 ≤ (Leaf.mk k lits len).width → m a = m' a := fun hw => h a (by omega) (by omega)
  cases k <;> simp only [getValue] <;>
    first
    | (rw [hr _ (by simp [Leaf.width])]; done)
    | (rw [hb (by simp [Leaf.width])]; done)
    | rfl

theorem wrap_signed {w : Nat} {t : ITy} {z : Int} (hw : t.width = 8 * w) (hr : t.Range z) :
    wrap t (((z % (2 ^ (8 * w) : Nat)).toNat % 256 ^ w : Nat) : Int) = z := by
  have hp : (256 : Nat) ^ w = 2 ^ (8 * w) := by rw [Nat.pow_mul]
  have h0 : (0 : Int) ≤ z % (2 ^ (8 * w) : Nat) := Int.emod_nonneg _ (by
    have := Nat.two_pow_pos (8 * w); omega)
  have h1 : z % ((2 ^ (8 * w) : Nat) : Int) < (2 ^ (8 * w) : Nat) := Int.emod_lt_of_pos _ (by
    have := Nat.two_pow_pos (8 * w); omega)
  rw [hp, Nat.mod_eq_of_lt (by omega), Int.toNat_of_nonneg h0]
  have : wrap t (z % ((2 ^ (8 * w) : Nat) : Int)) = wrap t z := by
    unfold wrap
    rw [hw]
    split
    · exact Int.emod_bmod ..
    · exact Int.emod_emod ..
  rw [this]
  exact Verif.Any.wrap_eq hr

theorem encode_lt {f : Float.Fmt} (hf : f.Ok) {x : Fl} (h : f.Has x) : f.encode x < 2 ^ (f.p + f.w) := by
  have hp := hf.1
  have hW : 4 ≤ 2 ^ f.w := by
    have := Nat.pow_le_pow_right (n := 2) (by omega) hf.2; simpa using this
  have hP : 0 < 2 ^ (f.p - 1) := Nat.two_pow_pos _
  have e0 : 2 ^ (f.p + f.w) = 2 * (2 ^ (f.p - 1) * 2 ^ f.w) := by
    rw [← Nat.pow_add, ← Nat.pow_succ']; congr 1; omega
  have es : ∀ neg, f.signBit neg ≤ 2 ^ (f.p - 1) * 2 ^ f.w := by
    intro neg; unfold Float.Fmt.signBit; rw [Nat.pow_add]; cases neg <;> simp
  have em : (2 ^ f.w - 1) * 2 ^ (f.p - 1) + 2 ^ (f.p - 1) = 2 ^ (f.p - 1) * 2 ^ f.w := by
    have : 2 ^ f.w = (2 ^ f.w - 1) + 1 := by omega
    rw [Nat.mul_comm (2 ^ (f.p - 1)), this, Nat.add_mul, Nat.one_mul]; simp
  rw [e0]
  cases x with
  | nan =>
    have : 2 ^ (f.p - 2) ≤ 2 ^ (f.p - 1) := Nat.pow_le_pow_right (by omega) (by omega)
    unfold Float.Fmt.encode; simp only
    omega
  | inf neg =>
    have := es neg
    unfold Float.Fmt.encode; simp only
    omega
  | fin q =>
    obtain ⟨neg, N, hN, rfl⟩ := h
    unfold Float.Fmt.encode
    simp only
    rw [Float.abs_val, Float.floor_nat, show ((N : Int)).toNat = N from rfl]
    have h1 := es (decide (f.val neg N < 0))
    have h2 := Float.sig_lt f N
    have h3 := Float.Mag.expo_top hf hN
    have h4 : 2 ^ f.p = 2 * 2 ^ (f.p - 1) := by rw [← Nat.pow_succ']; congr 1; omega
    have h5 : f.expo N * 2 ^ (f.p - 1) ≤ (2 ^ f.w - 3) * 2 ^ (f.p - 1) := Nat.mul_le_mul_right _ h3
    have h6 : (2 ^ f.w - 1) * 2 ^ (f.p - 1) = (2 ^ f.w - 3) * 2 ^ (f.p - 1) + 2 * 2 ^ (f.p - 1) := by
      rw [← Nat.add_mul]; congr 1; omega
    unfold Float.Fmt.magBits
    omega

theorem encode_lt32 {x : Fl} (h : ∀ q, x = .fin q → Float.Float32 q) : f32.encode x < 256 ^ 4 := by
  have : f32.Has x := by
    cases x with
    | fin q => exact (Float.float32_iff q).1 (h q rfl)
    | _ => trivial
  exact encode_lt Float.ok32 this

theorem encode_lt64 {x : Fl} (h : ∀ q, x = .fin q → Float.Float64 q) : f64.encode x < 256 ^ 8 := by
  have : f64.Has x := by
    cases x with
    | fin q => exact (Float.float64_iff q).1 (h q rfl)
    | _ => trivial
  exact encode_lt Float.ok64 this

/-- What is written is read back. -/
theorem getValue_write {m : Memory} {l : Leaf} {a : Int} {v : Val} (hk : l.kind ≠ .None)
    (h : Typed l.kind v)
    (hl : ∀ s, v = .str s → ∃ cs, s = some cs ∧ cs.length ≤ l.len.toNat) (hn : l.kind = .String8 → 0 ≤ l.len) :
    getValue (write m a (encode l.kind v)) l a = .ok ⟨l.kind, v⟩ := by
  have one : ∀ b, write m a [b] a = b := by
    intro b
    have := write_in (m := m) (a := a) (bs := [b]) (i := 0) rfl
    simpa using this
  have num : ∀ w n, leNat (read (write m a (leBytes w n)) a w) = n % 256 ^ w := by
    intro w n
    rw [read_write_eq _ _ _ (length_leBytes w n), leNat_leBytes]
  obtain ⟨k, lits, len⟩ := l
  simp only at *
  cases k
  case None => exact absurd rfl hk
  case Bool =>
    obtain ⟨b, rfl⟩ := h
    cases b <;> simp [getValue, encode, one]
  case Char8 =>
    obtain ⟨c, rfl, hc⟩ := h
    simp [getValue, encode, one]
    omega
  case Float32 =>
    obtain ⟨x, rfl, hx⟩ := h
    simp only [getValue, encode, if_true, num]
    rw [Nat.mod_eq_of_lt (encode_lt32 hx), Float.decode_encode Float.ok32]
    cases x with
    | fin q => exact (Float.float32_iff q).1 (hx q rfl)
    | _ => trivial
  case Float64 =>
    obtain ⟨x, rfl, hx⟩ := h
    simp only [getValue, encode, reduceCtorEq, if_false, num]
    rw [Nat.mod_eq_of_lt (encode_lt64 hx), Float.decode_encode Float.ok64]
    cases x with
    | fin q => exact (Float.float64_iff q).1 (hx q rfl)
    | _ => trivial
  case String8 =>
    obtain ⟨s, rfl, hs⟩ := h
    obtain ⟨cs, rfl, hle⟩ := hl s rfl
    have := hn rfl
    simp only [getValue, encode, Option.getD_some]
    rw [read_write _ _ _ (by simp; omega), List.append_assoc, List.singleton_append,
      cstring_append (hs cs rfl)]
  all_goals (
    obtain ⟨z, rfl, hz⟩ := h
    simp only [getValue, encode, num]
    refine congrArg (fun y => Out.ok (Any.mk _ (Val.int y))) ?_)
  case Int8 => exact wrap_signed (w := 1) (t := .i8) rfl hz
  case Int16 => exact wrap_signed (w := 2) (t := .i16) rfl hz
  case Int32 => exact wrap_signed (w := 4) (t := .i32) rfl hz
  case Int64 => exact wrap_signed (w := 8) (t := .i64) rfl hz
  case UInt8 => exact wrap_signed (w := 1) (t := .u8) rfl hz
  case UInt16 => exact wrap_signed (w := 2) (t := .u16) rfl hz
  case UInt32 => exact wrap_signed (w := 4) (t := .u32) rfl hz
  case UInt64 => exact wrap_signed (w := 8) (t := .u64) rfl hz
  case Duration => exact wrap_signed (w := 8) (t := .i64) rfl hz
  case DateTime => exact wrap_signed (w := 8) (t := .i64) rfl hz

end Verif.Mem
