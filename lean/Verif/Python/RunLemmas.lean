import Verif.Mem.FloatProps
import Verif.Python.Run
import Verif.Sim.LoopOne

/-! Lemmas for `RunProps.lean`. -/
namespace Verif.Python.Run
open Verif.Any (Fl)
open Verif.Float Verif.Sim

theorem absR_le {x b : Rat} (h : absR x ≤ b) : x ≤ b ∧ -b ≤ x := by
  unfold absR at h; grind

theorem div_nonneg {a b : Rat} (ha : 0 ≤ a) (hb : 0 < b) : 0 ≤ a / b := by
  rw [Rat.div_def]; exact Rat.mul_nonneg ha (Rat.le_of_lt (Rat.inv_pos.2 hb))

theorem half {f : Fmt} (hf : f.Ok) {y : Rat} (hy : 0 ≤ y) :
    absR (y - f.units y) ≤ y / ((2 ^ f.p : Nat) : Rat) + 1 / 2 := by
  obtain ⟨k, z, hu, hz, hzl, hyl, -, hn, -⟩ := units_parts hf hy
  rw [hu]
  have hg : (0 : Rat) < ((2 ^ k : Nat) : Rat) := two_pow_pos' _
  have hp : (0 : Rat) < ((2 ^ f.p : Nat) : Rat) := two_pow_pos' _
  obtain ⟨m, hm⟩ : ∃ m : Nat, (y / ((2 ^ k : Nat) : Rat)).floor = m := by
    have : 0 ≤ (y / ((2 ^ k : Nat) : Rat)).floor := by
      rw [Rat.le_floor_iff]
      exact div_nonneg hy hg
    exact ⟨_, (Int.toNat_of_nonneg this).symm⟩
  have h1 : ((m : Nat) : Rat) ≤ y / ((2 ^ k : Nat) : Rat) := by
    have := Rat.floor_le (a := y / ((2 ^ k : Nat) : Rat))
    rw [hm] at this; exact_mod_cast this
  have h2 : y / ((2 ^ k : Nat) : Rat) < ((m : Nat) : Rat) + 1 := by
    have := Rat.lt_floor_add_one (y / ((2 ^ k : Nat) : Rat))
    rw [hm] at this; exact_mod_cast this
  have e : y / ((2 ^ k : Nat) : Rat) * ((2 ^ k : Nat) : Rat) = y := by grind
  have h1' : ((m * 2 ^ k : Nat) : Rat) ≤ y := by
    have := Rat.mul_le_mul_of_nonneg_right h1 (Rat.le_of_lt hg)
    rw [e] at this; exact_mod_cast this
  have h2' : y ≤ (((m + 1) * 2 ^ k : Nat) : Rat) := by
    have := Rat.mul_le_mul_of_nonneg_right (Rat.le_of_lt h2) (Rat.le_of_lt hg)
    rw [e] at this; exact_mod_cast this
  have a1 := hn m
  have a2 := hn (m + 1)
  have d : (((m + 1) * 2 ^ k : Nat) : Rat) = ((m * 2 ^ k : Nat) : Rat) + ((2 ^ k : Nat) : Rat) := by
    rw [Nat.add_mul, Nat.one_mul]; exact_mod_cast rfl
  have b : absR (y - (z * 2 ^ k : Nat)) ≤ ((2 ^ k : Nat) : Rat) / 2 := by
    rw [d] at h2' a2
    generalize ((m * 2 ^ k : Nat) : Rat) = M at *
    generalize ((2 ^ k : Nat) : Rat) = g at *
    generalize absR (y - ((z * 2 ^ k : Nat) : Rat)) = w at *
    unfold absR at a1 a2
    grind
  by_cases hk : k = 0
  · subst hk
    have : 0 ≤ y / ((2 ^ f.p : Nat) : Rat) := div_nonneg hy hp
    simp only [Nat.pow_zero] at b ⊢
    grind
  · have c := hyl hk
    have : (2 : Nat) ^ (f.p - 1 + k) * 2 = 2 ^ f.p * 2 ^ k := by
      rw [← Nat.pow_succ, ← Nat.pow_add]; congr 1; have := hf.1; omega
    have c2 : ((2 ^ (f.p - 1 + k) : Nat) : Rat) * 2 = ((2 ^ f.p : Nat) : Rat) * ((2 ^ k : Nat) : Rat) := by
      exact_mod_cast this
    have : ((2 ^ k : Nat) : Rat) / 2 ≤ y / ((2 ^ f.p : Nat) : Rat) := by
      have e : y / ((2 ^ f.p : Nat) : Rat) * ((2 ^ f.p : Nat) : Rat) = y := by grind
      refine Rat.le_of_mul_le_mul_right ?_ hp
      rw [e]
      grind
    grind

/-- Rounding of a non-negative number changes it by at most half a unit of its last place. -/
theorem round_err {q r : Rat} (hq : 0 ≤ q) (h : f64.round q = .fin r) :
    0 ≤ r ∧ r ≤ q + q / 2 ^ 53 + 1 / 2 ^ 200 ∧ q ≤ r + q / 2 ^ 53 + 1 / 2 ^ 200 := by
  have hS : (0 : Rat) < ((2 ^ f64.scale : Nat) : Rat) := two_pow_pos' _
  have hS2 : (2 ^ 200 : Rat) ≤ ((2 ^ f64.scale : Nat) : Rat) := by decide +kernel
  have hx := half ok64 (scaled_nonneg f64 q)
  rw [round_eq] at h
  have hn : decide (q < 0) = false := by simp; grind
  have ha : absR q = q := by unfold absR; grind
  rw [hn] at h
  split at h
  · cases h
  · injection h with h
    rw [ha] at hx h
    generalize f64.units (q * ((2 ^ f64.scale : Nat) : Rat)) = N at *
    have hN : (0 : Rat) ≤ (N : Rat) := by exact_mod_cast Nat.zero_le N
    have hp : ((2 ^ f64.p : Nat) : Rat) = 2 ^ 53 := by decide +kernel
    rw [hp] at hx
    have hv : r * ((2 ^ f64.scale : Nat) : Rat) = N := by
      rw [← h]; unfold Fmt.val; simp only [Bool.false_eq_true, if_false]; grind
    generalize ((2 ^ f64.scale : Nat) : Rat) = S at *
    obtain ⟨x1, x2⟩ := absR_le hx
    rw [← hv] at x1 x2 hN
    have hr : 0 ≤ r := by
      refine Rat.le_of_mul_le_mul_right ?_ hS
      rw [Rat.zero_mul]; exact hN
    have hh : (1 : Rat) / 2 ≤ 1 / 2 ^ 200 * S := by grind
    refine ⟨hr, ?_, ?_⟩
    · refine Rat.le_of_mul_le_mul_right ?_ hS
      grind
    · refine Rat.le_of_mul_le_mul_right ?_ hS
      grind

theorem round_fin {q : Rat} (hq : 0 ≤ q) (hb : q ≤ 2 ^ 80) : ∃ r, f64.round q = .fin r := by
  cases h : f64.round q with
  | fin r => exact ⟨r, rfl⟩
  | nan => exact absurd h (round_ne_nan _ _)
  | inf b =>
    exfalso
    have h2 := (round_inf ok64 h).2
    have ha : absR q = q := by unfold absR; grind
    rw [ha] at h2
    have hl : (2 : Rat) ^ 82 * ((2 ^ f64.scale : Nat) : Rat) ≤
        (((2 ^ (f64.p + 1) - 1) * 2 ^ f64.top : Nat) : Rat) := by decide +kernel
    have hS : (0 : Rat) < ((2 ^ f64.scale : Nat) : Rat) := two_pow_pos' _
    generalize (((2 ^ (f64.p + 1) - 1) * 2 ^ f64.top : Nat) : Rat) = L at *
    generalize ((2 ^ f64.scale : Nat) : Rat) = S at *
    have := Rat.mul_le_mul_of_nonneg_right hb (Rat.le_of_lt hS)
    grind

theorem arith1 {x P Q m c a b : Rat} (hx : 0 ≤ x) (hP : 0 ≤ P) (hQ : 0 ≤ Q) (ha : 0 ≤ a) (ha1 : a ≤ 1 / 2)
    (hb : 0 ≤ b) (h1 : P ≤ Q + a * Q + b) (h2 : Q ≤ P + a * Q + b)
    (m1 : m ≤ P + P / 2 ^ 53 + 1 / 2 ^ 200) (m2 : P ≤ m + P / 2 ^ 53 + 1 / 2 ^ 200)
    (c1 : c ≤ (x + m) + (x + m) / 2 ^ 53 + 1 / 2 ^ 200)
    (c2 : x + m ≤ c + (x + m) / 2 ^ 53 + 1 / 2 ^ 200) :
    c ≤ (x + Q) + (a + 1 / 2 ^ 51) * (x + Q) + (2 * b + 1 / 2 ^ 190) ∧
    x + Q ≤ c + (a + 1 / 2 ^ 51) * (x + Q) + (2 * b + 1 / 2 ^ 190) := by
  have e1 : a * Q ≤ Q / 2 := by
    have := Rat.mul_le_mul_of_nonneg_right ha1 hQ
    grind
  have e2 : 0 ≤ a * x := Rat.mul_nonneg ha hx
  have e3 : 0 ≤ a * Q := Rat.mul_nonneg ha hQ
  have e4 : (a + 1 / 2 ^ 51) * (x + Q) = a * x + a * Q + x / 2 ^ 51 + Q / 2 ^ 51 := by grind
  rw [e4]
  generalize a * Q = A at *
  generalize a * x = B at *
  clear e4 ha ha1
  constructor
  · grind
  · grind


/-- A double near to a number. -/
def Near (r : Fl) (E a b : Rat) : Prop :=
  ∃ y, r = .fin y ∧ 0 ≤ y ∧ y ≤ E + a * E + b ∧ E ≤ y + a * E + b

theorem add_near (fz : Bool) {x E a b : Rat} {k : Nat} {r : Fl} (hx : 0 ≤ x) (hE : 0 ≤ E)
    (hk : k ≤ 1000) (hT : x + k * E ≤ 2 ^ 70) (ha : 0 ≤ a) (ha1 : a ≤ 1 / 2) (hb : 0 ≤ b) (hb1 : b ≤ 1)
    (h : Near r E a b) :
    Near (add fz x k r) (x + k * E) (a + 1 / 2 ^ 51) (2 * (k * b) + 1 / 2 ^ 190) := by
  obtain ⟨y, rfl, hy, h1, h2⟩ := h
  have k0 : (0 : Rat) ≤ (k : Rat) := by exact_mod_cast Nat.zero_le k
  have k1 : (k : Rat) ≤ 1000 := by exact_mod_cast hk
  have hP : 0 ≤ (k : Rat) * y := Rat.mul_nonneg k0 hy
  have hQ : 0 ≤ (k : Rat) * E := Rat.mul_nonneg k0 hE
  have hB : 0 ≤ (k : Rat) * b := Rat.mul_nonneg k0 hb
  have hB1 : (k : Rat) * b ≤ 1000 := by
    have := Rat.mul_le_mul_of_nonneg_right k1 hb
    grind
  have g1 : (k : Rat) * y ≤ k * E + a * (k * E) + k * b := by
    have := Rat.mul_le_mul_of_nonneg_left h1 k0
    grind
  have g2 : (k : Rat) * E ≤ k * y + a * (k * E) + k * b := by
    have := Rat.mul_le_mul_of_nonneg_left h2 k0
    grind
  have e1 : a * (k * E) ≤ (k * E) / 2 := by
    have := Rat.mul_le_mul_of_nonneg_right ha1 hQ
    grind
  dsimp only [add]
  generalize (k : Rat) * y = P at *
  generalize (k : Rat) * E = Q at *
  generalize (k : Rat) * b = β at *
  have hPb : P ≤ 2 ^ 71 := by grind
  cases fz with
  | true =>
    rw [if_pos rfl]
    obtain ⟨c, hc⟩ := round_fin (q := x + P) (by grind) (by grind)
    obtain ⟨c0, c1, c2⟩ := round_err (by grind) hc
    have := arith1 hx hP hQ ha ha1 hB g1 g2 (m := P) (c := c) (by grind) (by grind) c1 c2
    exact ⟨c, hc, c0, this.1, this.2⟩
  | false =>
    rw [if_neg (by decide)]
    obtain ⟨m, hm⟩ := round_fin (q := P) hP (by grind)
    obtain ⟨m0, m1, m2⟩ := round_err hP hm
    rw [hm]
    dsimp only
    obtain ⟨c, hc⟩ := round_fin (q := x + m) (by grind) (by grind)
    obtain ⟨c0, c1, c2⟩ := round_err (by grind) hc
    have := arith1 hx hP hQ ha ha1 hB g1 g2 m1 m2 c1 c2
    exact ⟨c, hc, c0, this.1, this.2⟩

/-- Whole numbers up to `2 ^ 53` are doubles. -/
theorem round_int {n : Int} (h : n.natAbs ≤ 2 ^ 53) : f64.round (n : Rat) = .fin n := by
  apply round_self ok64
  have hS : (0 : Rat) < ((2 ^ f64.scale : Nat) : Rat) := two_pow_pos' _
  refine ⟨decide (n < 0), n.natAbs * 2 ^ f64.scale, ?_, ?_⟩
  · rcases Nat.lt_or_ge n.natAbs (2 ^ 53) with h1 | h1
    · exact ⟨n.natAbs, f64.scale, h1, by decide, rfl⟩
    · have : n.natAbs = 2 ^ 53 := by omega
      refine ⟨2 ^ 52, f64.scale + 1, by decide, by decide, ?_⟩
      rw [this, Nat.pow_succ 2 f64.scale]
      generalize 2 ^ f64.scale = S
      omega
  · unfold Fmt.val
    have e : ((n.natAbs * 2 ^ f64.scale : Nat) : Rat) / ((2 ^ f64.scale : Nat) : Rat) =
        ((n.natAbs : Int) : Rat) := by
      have : ((n.natAbs * 2 ^ f64.scale : Nat) : Rat) =
        ((n.natAbs : Nat) : Rat) * ((2 ^ f64.scale : Nat) : Rat) := by exact_mod_cast rfl
      rw [this]
      generalize ((2 ^ f64.scale : Nat) : Rat) = S at *
      have : (((n.natAbs : Nat) : Int) : Rat) = ((n.natAbs : Nat) : Rat) := by exact_mod_cast rfl
      grind
    rw [e]
    by_cases hn : n < 0
    · rw [decide_eq_true hn, if_pos rfl, show ((n.natAbs : Nat) : Int) = -n by omega]
      push_cast; grind
    · rw [decide_eq_false hn, if_neg (by decide), show ((n.natAbs : Nat) : Int) = n by omega]
      grind

theorem add_int (fz : Bool) {x y : Int} {k : Nat} (h1 : ((k : Int) * y).natAbs ≤ 2 ^ 53)
    (h2 : (x + k * y).natAbs ≤ 2 ^ 53) : add fz x k (.fin y) = .fin ((x + k * y : Int) : Rat) := by
  have e1 : (k : Rat) * (y : Rat) = ((k * y : Int) : Rat) := by push_cast; rfl
  have e2 : (x : Rat) + ((k * y : Int) : Rat) = ((x + k * y : Int) : Rat) := by push_cast; rfl
  dsimp only [add]
  rw [e1, e2, round_int h1, round_int h2]
  dsimp only
  rw [e2, round_int h2]
  split <;> rfl

theorem asDuration_int {n : Int} (h1 : -2 ^ 63 ≤ n) (h2 : n < 2 ^ 63) :
    asDuration (.fin n) = some n := by
  have e : (if (n : Rat) < 0 then -(-(n : Rat)).floor else (n : Rat).floor) = n := by
    split
    · rw [show (-(n : Rat)) = ((-n : Int) : Rat) by push_cast; rfl, Rat.floor_intCast]; omega
    · rw [Rat.floor_intCast]
  unfold asDuration
  dsimp only
  rw [e, if_pos ⟨h1, h2⟩]

/-! ### One thread -/

/-- An emission in progress. -/
def emitting : Frame → Prop
  | .op (.endEmit :: _) _ => True
  | _ => False

/-- Operations in progress are what is left of a program; `_lastGlobalEventId` is set only while an
event is being emitted. -/
def OneInv (s : Sys) : Prop :=
  (∀ f ∈ s.stack 0, ∀ r p, f = .op r p → ∃ o : Op, r ∈ ends o.prog) ∧
  (s.last ≠ none → ∃ f ∈ s.stack 0, emitting f)

theorem emit_next (o : Op) (e : Ev) (r : List M) (h : .emit e :: r ∈ ends o.prog) :
    r.head? = some .endEmit := by
  have : ∀ o : Op, ∀ x ∈ ends o.prog,
      (∃ e, x.head? = some (.emit e)) → x.tail.head? = some .endEmit := by
    intro o x hx ⟨e, he⟩
    revert x
    have : ∀ x ∈ ends o.prog, (match x.head? with | some (.emit _) => true | _ => false) = true →
        x.tail.head? = some .endEmit := by
      cases o <;> decide
    intro x hx he
    exact this x hx (by rw [he])
  simpa using this o _ h ⟨e, rfl⟩

theorem mem_pushOp {f : Frame} {r q fs} (h : f ∈ pushOp r q fs) : f = .op r q ∨ f ∈ fs := by
  unfold pushOp at h
  split at h
  · exact .inr h
  · exact List.mem_cons.1 h

theorem mem_pushOp_tail {f : Frame} {r q fs} (h : f ∈ fs) : f ∈ pushOp r q fs := by
  unfold pushOp
  split
  · exact h
  · exact List.mem_cons_of_mem _ h

theorem one_op {s : Sys} (h : OneInv s) {st : St} {b : Bool} {m r p q fs}
    (hst : s.stack 0 = .op (m :: r) p :: fs) (hm : m ≠ .endEmit) :
    OneInv { s with state := st, hold := b, stack := s.setStack 0 (pushOp r q fs) } := by
  obtain ⟨h1, h2⟩ := h
  rw [hst] at h1 h2
  obtain ⟨o, ho⟩ := h1 _ List.mem_cons_self _ _ rfl
  refine ⟨?_, ?_⟩
  · intro f hf r' p' e
    simp only [Sys.setStack, if_true] at hf
    rcases mem_pushOp hf with rfl | hf
    · injection e with e1 e2
      exact ⟨o, e1 ▸ tails_cons ho⟩
    · exact h1 f (List.mem_cons_of_mem _ hf) r' p' e
  · intro hl
    obtain ⟨f, hf, he⟩ := h2 hl
    simp only [Sys.setStack, if_true]
    rcases List.mem_cons.1 hf with rfl | hf
    · exact absurd he (by cases m <;> first | (intro h; exact h) | exact absurd rfl hm)
    · exact ⟨f, mem_pushOp_tail hf, he⟩

theorem one_loop {s : Sys} (h : OneInv s) {p fs l} {log : List Obs}
    (hst : s.stack 0 = .loop p :: fs) (hl : l = fs ∨ ∃ q, l = .loop q :: fs) :
    OneInv { s with stack := s.setStack 0 l, log := log } := by
  obtain ⟨h1, h2⟩ := h
  rw [hst] at h1 h2
  refine ⟨?_, ?_⟩
  · intro f hf r' p' e
    simp only [Sys.setStack, if_true] at hf
    refine h1 f (List.mem_cons_of_mem _ ?_) r' p' e
    rcases hl with rfl | ⟨q, rfl⟩
    · exact hf
    · rcases List.mem_cons.1 hf with rfl | hf
      · cases e
      · exact hf
  · intro hx
    obtain ⟨f, hf, he⟩ := h2 hx
    simp only [Sys.setStack, if_true]
    rcases List.mem_cons.1 hf with rfl | hf
    · exact absurd he (fun h => h)
    · rcases hl with rfl | ⟨q, rfl⟩
      · exact ⟨f, hf, he⟩
      · exact ⟨f, List.mem_cons_of_mem _ hf, he⟩

theorem one_step {s : Sys} (h : OneInv s) (a : Act) : OneInv (s.step 0 a) := by
  cases a with
  | call o =>
    simp only [Sys.step]
    split
    · refine ⟨?_, ?_⟩
      · intro f hf r p e
        simp only [Sys.setStack, if_true] at hf
        rcases List.mem_cons.1 hf with rfl | hf
        · injection e with e1 e2
          exact ⟨o, e1 ▸ prog_tails o⟩
        · exact h.1 f hf r p e
      · intro hl
        obtain ⟨f, hf, he⟩ := h.2 hl
        refine ⟨f, ?_, he⟩
        simp only [Sys.setStack, if_true]
        exact List.mem_cons_of_mem _ hf
    · exact h
  | go =>
    simp only [Sys.step]
    split
    · rename_i m r p fs hst
      cases m with
      | emit e =>
        refine ⟨?_, fun _ => ?_⟩
        · intro f hf r' p' e'
          simp only [Sys.micro, Sys.setStack, if_true] at hf
          rcases List.mem_cons.1 hf with rfl | hf
          · injection e' with e1 e2
            obtain ⟨o, ho⟩ := h.1 (.op (.emit e :: r) p) (by rw [hst]; exact List.mem_cons_self) _ _ rfl
            exact ⟨o, e1 ▸ tails_cons ho⟩
          · exact h.1 f (by rw [hst]; exact List.mem_cons_of_mem _ hf) r' p' e'
        · obtain ⟨o, ho⟩ := h.1 (.op (.emit e :: r) p) (by rw [hst]; exact List.mem_cons_self) _ _ rfl
          have := emit_next o e r ho
          refine ⟨.op r (subscribed e), ?_, ?_⟩
          · simp only [Sys.micro, Sys.setStack, if_true]; exact List.mem_cons_self
          · cases r with
            | nil => cases this
            | cons x r =>
              simp only [List.head?_cons, Option.some.injEq] at this
              subst this
              trivial
      | endEmit =>
        simp only [Sys.micro]
        split
        · refine ⟨?_, fun hl => absurd rfl hl⟩
          intro f hf r' p' e'
          simp only [Sys.setStack, if_true] at hf
          rcases mem_pushOp hf with rfl | hf
          · injection e' with e1 e2
            obtain ⟨o, ho⟩ := h.1 (.op (.endEmit :: r) p) (by rw [hst]; exact List.mem_cons_self) _ _ rfl
            exact ⟨o, e1 ▸ tails_cons ho⟩
          · exact h.1 f (by rw [hst]; exact List.mem_cons_of_mem _ hf) r' p' e'
        · exact h
      | set st => exact one_op (q := none) (b := s.hold) h hst (fun h => nomatch h)
      | work => exact one_op (q := none) (b := s.hold) h hst (by decide)
      | swapInit => exact one_op (q := none) (b := s.hold) h hst (by decide)
      | runInit q => exact one_op (q := none) (b := s.hold) h hst (fun h => nomatch h)
      | endInit => exact one_op (q := none) (b := s.hold) h hst (by decide)
    · exact h
  | tell =>
    simp only [Sys.step]
    split
    · rename_i r fs hst
      refine ⟨?_, fun hl => ?_⟩
      · intro f hf r' p' e'
        simp only [Sys.setStack, if_true] at hf
        rcases List.mem_cons.1 hf with rfl | hf
        · cases e'
        · rcases List.mem_cons.1 hf with rfl | hf
          · injection e' with e1 e2
            exact e1 ▸ h.1 (.op (.endEmit :: r) (some .enterExecuting))
              (by rw [hst]; exact List.mem_cons_self) _ _ rfl
          · exact h.1 f (by rw [hst]; exact List.mem_cons_of_mem _ hf) r' p' e'
      · refine ⟨.op (.endEmit :: r) none, ?_, trivial⟩
        simp [Sys.setStack]
    · rename_i r fs hst
      refine ⟨?_, fun hl => ?_⟩
      · intro f hf r' p' e'
        simp only [Sys.setStack, if_true] at hf
        rcases List.mem_cons.1 hf with rfl | hf
        · injection e' with e1 e2
          exact e1 ▸ h.1 (.op (.endEmit :: r) (some .leaveExecuting))
            (by rw [hst]; exact List.mem_cons_self) _ _ rfl
        · exact h.1 f (by rw [hst]; exact List.mem_cons_of_mem _ hf) r' p' e'
      · refine ⟨.op (.endEmit :: r) none, ?_, trivial⟩
        simp [Sys.setStack]
    · exact h
  | exec id =>
    simp only [Sys.step]
    split
    · rename_i fs hst; exact one_loop h hst (.inr ⟨_, rfl⟩)
    · exact h
  | skip =>
    simp only [Sys.step]
    split
    · rename_i fs hst
      split
      · exact one_loop (log := s.log) h hst (.inl rfl)
      · exact one_loop (log := s.log) h hst (.inr ⟨_, rfl⟩)
    · exact h
  | slot =>
    simp only [Sys.step]
    split
    · rename_i fs hst; exact one_loop (log := s.log) h hst (.inr ⟨_, rfl⟩)
    · exact h
  | finish =>
    simp only [Sys.step]
    split
    · rename_i fs hst; exact one_loop (log := s.log) h hst (.inl rfl)
    · exact h
  | ret d =>
    simp only [Sys.step]
    split
    · rename_i fs hst
      split
      · exact one_loop (log := s.log) h hst (.inl rfl)
      · exact one_loop (log := s.log) h hst (.inr ⟨_, rfl⟩)
    · rename_i fs hst
      split
      · exact one_loop (log := s.log) h hst (.inl rfl)
      · exact one_loop (log := s.log) h hst (.inr ⟨_, rfl⟩)
    · rename_i fs hst; exact one_loop (log := s.log) h hst (.inr ⟨_, rfl⟩)
    · rename_i fs hst
      split
      · exact one_loop (log := s.log) h hst (.inl rfl)
      · exact one_loop (log := s.log) h hst (.inr ⟨_, rfl⟩)
    · rename_i fs hst; exact one_loop (log := s.log) h hst (.inr ⟨_, rfl⟩)
    · exact h

theorem one_run (l : List Act) (s : Sys) (h : OneInv s) : OneInv (s.run1 l) := by
  induction l generalizing s with
  | nil => exact h
  | cons a l ih => exact ih _ (one_step h a)

/-- With one thread, nothing is being emitted once every call has returned. -/
theorem one_last (h0 : Bool) (l : List Act) (he : ((Sys.init h0).run1 l).stack 0 = []) :
    ((Sys.init h0).run1 l).last = none := by
  have h := one_run l (.init h0) ⟨by simp [Sys.init], by simp [Sys.init]⟩
  cases hl : ((Sys.init h0).run1 l).last with
  | none => rfl
  | some e =>
    obtain ⟨f, hf, -⟩ := h.2 (by rw [hl]; exact fun h => nomatch h)
    rw [he] at hf; cases hf

end Verif.Python.Run
