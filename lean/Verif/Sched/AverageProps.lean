import Verif.Sched.Average
import Verif.Chrono.FloatingProps

/-! Property C163: the moving average of the scheduler. -/
namespace Verif.Sched.Average
open Verif.Any (Fl)
open Verif.Float
open Verif.Chrono.Floating (addF subF divF negF)

/-! ### Specification -/

/-- The sum of numbers. -/
def total (xs : List Rat) : Rat := xs.foldr (· + ·) 0

/-- The last twenty of the samples, or all if there are less. -/
def recent (xs : List Rat) : List Rat := xs.drop (xs.length - 20)

/-- All sums of at most 21 samples that follow each other are numbers of type `double`. -/
def Exact (xs : List Rat) : Prop :=
  ∀ l m r, xs = l ++ m ++ r → m.length ≤ 21 → f64.Has (.fin (total m))

/-! ### Lemmas -/

theorem total_append (a b : List Rat) : total (a ++ b) = total a + total b := by
  induction a with
  | nil => simp [total, Rat.zero_add]
  | cons x a ih =>
    show x + total (a ++ b) = (x + total a) + total b
    rw [ih, Rat.add_assoc]

theorem total_zeros (n : Nat) : total (List.replicate n 0) = 0 := by
  induction n with
  | zero => rfl
  | succ n ih =>
    show 0 + total (List.replicate n 0) = 0
    rw [ih, Rat.zero_add]

/-- What the array holds, the oldest first. -/
def window (xs : List Rat) : List Rat := (List.replicate 20 0 ++ xs).drop xs.length

theorem window_eq (xs : List Rat) : window xs = List.replicate (20 - xs.length) 0 ++ recent xs := by
  unfold window recent
  rw [List.drop_append, List.drop_replicate, List.length_replicate]

theorem window_length (xs : List Rat) : (window xs).length = 20 := by
  unfold window
  rw [List.length_drop, List.length_append, List.length_replicate]
  omega

theorem window_total (xs : List Rat) : total (window xs) = total (recent xs) := by
  rw [window_eq, total_append, total_zeros, Rat.zero_add]

theorem window_snoc (xs : List Rat) (x : Rat) : window (xs ++ [x]) = (window xs).tail ++ [x] := by
  unfold window
  rw [← List.append_assoc, List.length_append, List.drop_append_of_le_length (by simp), List.tail_drop]
  rfl

/-- The members after samples `xs` since the last `clear`. -/
structure Inv (a : Avg) (xs : List Rat) : Prop where
  sum : a.sum = .fin (total (recent xs))
  samples : a.samples.drop a.index ++ a.samples.take a.index = (window xs).map Fl.fin
  index : a.index < 20
  size : a.size = min xs.length 20

theorem inv_clear (a : Avg) : Inv (clear a) [] := by
  refine ⟨rfl, ?_, by simp [clear], rfl⟩
  simp [clear, window, sampleCount]

theorem inv_add {a : Avg} {xs : List Rat} {x : Rat} (h : Inv a xs)
    (h1 : f64.Has (.fin (total (recent xs) + x))) (h2 : f64.Has (.fin (total (recent (xs ++ [x]))))) :
    Inv (addSample a (.fin x)) (xs ++ [x]) := by
  obtain ⟨e1, e2, e3, e4⟩ := h
  have hl : a.samples.length = 20 := by
    have := congrArg List.length e2
    simp [window_length] at this
    omega
  have hi : a.index < a.samples.length := by omega
  rw [List.drop_eq_getElem_cons hi] at e2
  obtain ⟨w, ws, hw⟩ : ∃ w ws, window xs = w :: ws := by
    cases hw : window xs with
    | nil => have := window_length xs; rw [hw] at this; simp at this
    | cons w ws => exact ⟨w, ws, rfl⟩
  rw [hw, List.map_cons, List.cons_append] at e2
  obtain ⟨e5, e6⟩ := List.cons.inj e2
  have ht : total (recent (xs ++ [x])) = total (recent xs) + x - w := by
    rw [← window_total, window_snoc, hw, ← window_total, hw, total_append]
    show total ws + (x + 0) = w + total ws + x - w
    rw [Rat.add_zero, Rat.sub_eq_add_neg, Rat.add_comm w, Rat.add_assoc, Rat.add_assoc,
      Rat.add_comm w, Rat.add_assoc, Rat.add_comm (-w), Rat.add_neg_cancel, Rat.add_zero]
  refine ⟨?_, ?_, ?_, ?_⟩
  · show subF f64 (addF f64 a.sum (.fin x)) (a.samples.getD a.index .nan) = _
    rw [List.getD_eq_getElem?_getD, List.getElem?_eq_getElem hi, Option.getD_some, e5, e1]
    simp only [subF, addF, negF]
    rw [round_self (f := f64) (Verif.Chrono.Floating.ok .double) h1]
    simp only []
    rw [← Rat.sub_eq_add_neg, ← ht, round_self (f := f64) (Verif.Chrono.Floating.ok .double) h2]
  · rw [window_snoc, hw, List.tail_cons, List.map_append, ← e6]
    have hs : (a.samples.set a.index (.fin x)) =
        a.samples.take a.index ++ .fin x :: a.samples.drop (a.index + 1) := by
      rw [List.set_eq_take_append_cons_drop, if_pos hi]
    have ht : (a.samples.take a.index).length = a.index := by simp; omega
    simp only [addSample]
    by_cases hc : a.index + 1 = sampleCount
    · rw [if_pos hc, hs]
      have : a.samples.drop (a.index + 1) = [] := List.drop_eq_nil_of_le (by
        have : sampleCount = 20 := rfl
        omega)
      simp [this]
    · rw [if_neg hc, hs]
      have e : ∀ (p q : List Fl) (y : Fl), p.length = a.index →
          (p ++ y :: q).drop (a.index + 1) ++ (p ++ y :: q).take (a.index + 1) = q ++ p ++ [y] := by
        intro p q y hp
        rw [← hp, List.drop_append, List.take_append, List.drop_eq_nil_of_le (by omega),
          List.take_of_length_le (by omega), show p.length + 1 - p.length = 1 by omega]
        simp
      rw [e _ _ _ ht]
      rfl
  · show (if a.index + 1 = sampleCount then 0 else a.index + 1) < 20
    have : sampleCount = 20 := rfl
    split <;> omega
  · show (if a.size < sampleCount then a.size + 1 else a.size) = _
    have : sampleCount = 20 := rfl
    rw [List.length_append, List.length_singleton]
    split <;> omega

theorem recent_split (xs : List Rat) : xs = xs.take (xs.length - 20) ++ recent xs :=
  (List.take_append_drop _ _).symm

theorem run_inv (a : Avg) (xs : List Rat) : ∀ ys, Exact (ys ++ xs) → Inv a ys →
    Inv (run a (xs.map fun x => .add (.fin x))) (ys ++ xs) := by
  induction xs generalizing a with
  | nil => intro ys _ h; rw [List.append_nil]; exact h
  | cons x xs ih =>
    intro ys he h
    have he' : Exact ((ys ++ [x]) ++ xs) := by simpa using he
    have := ih (addSample a (.fin x)) (ys ++ [x]) he' (inv_add h ?_ ?_)
    · rw [List.append_assoc] at this
      exact this
    · have := he (ys.take (ys.length - 20)) (recent ys ++ [x]) xs (by
        rw [← List.append_assoc, ← recent_split]; simp) (by simp [recent]; omega)
      rw [total_append] at this
      simpa [total, Rat.add_zero] using this
    · exact he ((ys ++ [x]).take ((ys ++ [x]).length - 20)) (recent (ys ++ [x])) xs (by
        rw [← recent_split]; simp) (by simp [recent]; omega)

/-! ### Property C163 -/

/-- C163. Whatever was called before: after `clear` and any samples, as long as their sums are numbers of
type `double`, the average is the sum of the last twenty samples (or of all, if less) divided by how many
they are, rounded once; it is zero if there is none. -/
theorem C163_mean_partial (a : Avg) (before : List Op) (xs : List Rat) (h : Exact xs) :
    average (run a (before ++ .clear :: xs.map fun x => .add (.fin x))) =
      if xs = [] then .fin 0 else f64.round (total (recent xs) / ((recent xs).length : Rat)) := by
  have e : run a (before ++ .clear :: xs.map fun x => .add (.fin x)) =
      run (clear (run a before)) (xs.map fun x => .add (.fin x)) := by
    simp [run, List.foldl_append, step]
  have inv := run_inv _ xs [] (by simpa using h) (inv_clear (run a before))
  rw [e]
  generalize run (clear (run a before)) (xs.map fun x => .add (.fin x)) = b at inv
  obtain ⟨h1, _, _, h4⟩ := inv
  rw [List.nil_append] at h1 h4
  unfold average
  cases xs with
  | nil => rw [if_pos (by simpa using h4), if_pos rfl]
  | cons x xs =>
    have hl : (recent (x :: xs)).length = b.size := by
      rw [h4]; simp [recent]; omega
    have hs : b.size ≠ 0 := by rw [h4]; simp
    have hq : ((b.size : Nat) : Rat) ≠ 0 := by
      intro hc
      exact hs (Rat.natCast_inj.1 hc)
    rw [if_neg hs, if_neg (by simp), h1, hl]
    show (if _ then _ else _) = _
    rw [if_neg hq]

/-- C163. The condition is met by whole numbers up to 2^48. -/
theorem C163_whole (xs : List Int) (h : ∀ x ∈ xs, x.natAbs ≤ 2 ^ 48) :
    Exact (xs.map fun x : Int => (x : Rat)) := by
  have key : ∀ m : List Int, (∀ x ∈ m, x.natAbs ≤ 2 ^ 48) →
      ∃ s : Int, total (m.map fun x : Int => (x : Rat)) = s ∧ s.natAbs ≤ m.length * 2 ^ 48 := by
    intro m
    induction m with
    | nil => intro _; exact ⟨0, rfl, by simp⟩
    | cons x m ih =>
      intro hm
      obtain ⟨s, hs, hb⟩ := ih fun y hy => hm y (List.mem_cons_of_mem _ hy)
      refine ⟨x + s, ?_, ?_⟩
      · show (x : Rat) + total _ = _
        rw [hs, Rat.intCast_add]
      · have := hm x (List.mem_cons_self ..)
        rw [List.length_cons]
        omega
  intro l m r he hm
  obtain ⟨l', r', rfl, hl, hr⟩ := List.map_eq_append_iff.1 he
  obtain ⟨l1, m1, rfl, hl1, hm1⟩ := List.map_eq_append_iff.1 hl
  subst hm1
  obtain ⟨s, hs, hb⟩ := key m1 fun x hx => h x (by simp [hx])
  rw [hs]
  rw [List.length_map] at hm
  exact Verif.Chrono.Floating.has_int .double (v := s) (by
    show s.natAbs ≤ 2 ^ 53
    have : m1.length * 2 ^ 48 ≤ 21 * 2 ^ 48 := Nat.mul_le_mul_right _ hm
    omega)

example : Exact ([3, -1, 4].map fun x : Int => (x : Rat)) := C163_whole [3, -1, 4] (by decide)

example : average (run ⟨.nan, [], 3, 9⟩ [.add .nan, .clear, .add (.fin 3), .add (.fin (-1)), .add (.fin 4)]) =
    .fin 2 := by decide +kernel

/-- The array full of ones, with the sum zero. -/
def lost (a : Avg) : Prop :=
  a.sum = .fin 0 ∧ a.samples = List.replicate 20 (.fin 1) ∧ a.index < 20 ∧ a.size = 20

theorem lost_step {a : Avg} (h : lost a) : lost (addSample a (.fin 1)) := by
  obtain ⟨h1, h2, h3, h4⟩ := h
  have hs : sampleCount = 20 := rfl
  refine ⟨?_, ?_, ?_, ?_⟩
  · show subF f64 (addF f64 a.sum (.fin 1)) (a.samples.getD a.index .nan) = _
    rw [h1, h2, List.getD_eq_getElem?_getD, List.getElem?_replicate, if_pos h3, Option.getD_some]
    decide +kernel
  · show a.samples.set a.index _ = _
    rw [h2, List.set_replicate_self]
  · show (if a.index + 1 = sampleCount then 0 else a.index + 1) < 20
    split <;> omega
  · show (if a.size < sampleCount then a.size + 1 else a.size) = 20
    split <;> omega

/-- C163 fails: a great sample is never forgotten. After one of 2^53 and then any number of ones, at least
twenty, the average of the last twenty samples, which are all one, is said to be zero. -/
theorem C163_lost_fails (a : Avg) (k : Nat) :
    average (run a (.clear :: .add (.fin (2 ^ 53)) :: List.replicate (20 + k) (.add (.fin 1)))) =
      .fin 0 := by
  have start : lost (run a (.clear :: .add (.fin (2 ^ 53)) :: List.replicate 20 (.add (.fin 1)))) := by
    have : run a (.clear :: .add (.fin (2 ^ 53)) :: List.replicate 20 (.add (.fin 1))) =
        run ⟨.nan, [], 0, 0⟩ (.clear :: .add (.fin (2 ^ 53)) :: List.replicate 20 (.add (.fin 1))) := rfl
    rw [this]
    unfold lost
    decide +kernel
  have all : ∀ k b, lost b → lost (run b (List.replicate k (.add (.fin 1)))) := by
    intro k
    induction k with
    | zero => intro b h; exact h
    | succ k ih => intro b h; exact ih _ (lost_step h)
  have split : run a (.clear :: .add (.fin (2 ^ 53)) :: List.replicate (20 + k) (.add (.fin 1))) =
      run (run a (.clear :: .add (.fin (2 ^ 53)) :: List.replicate 20 (.add (.fin 1))))
        (List.replicate k (.add (.fin 1))) := by
    rw [← List.replicate_append_replicate]
    simp only [run, List.foldl_cons, List.foldl_append]
  rw [split]
  obtain ⟨h1, _, _, h4⟩ := all k _ start
  unfold average
  rw [h1, h4]
  decide +kernel

end Verif.Sched.Average
