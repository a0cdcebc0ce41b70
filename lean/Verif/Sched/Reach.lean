import Verif.Sched.TickInv

/-
Executions of the scheduler machine and the invariant along them.
-/
namespace Verif.Sched

/-- An input that avoids the defects listed at `Op.ok`. -/
def Input.ok (s : State) : Input → Prop
  | .op o => o.ok s
  | _ => True

/-- Every call of the execution is `ok` in the state in which it is made. -/
def OkRun : State → List Input → Prop
  | _, [] => True
  | s, i :: is => i.ok s ∧ OkRun (step s i) is

theorem exec_cons (s : State) (i : Input) (is : List Input) :
    exec s (i :: is) = exec (step s i) is := rfl

theorem exec_append (s : State) (is js : List Input) :
    exec s (is ++ js) = exec (exec s is) js := by
  unfold exec; rw [List.foldl_append]

theorem OkRun.append {s : State} {is js : List Input} :
    OkRun s (is ++ js) ↔ OkRun s is ∧ OkRun (exec s is) js := by
  induction is generalizing s with
  | nil => simp [OkRun, exec]
  | cons i is ih => simp only [List.cons_append, OkRun, ih, exec_cons, and_assoc]

theorem step_fault {s : State} {i : Input} (h : s.fault.isSome) : step s i = s := by
  unfold step; rw [if_pos h]

theorem step_op {s : State} (o : Op) (h : s.fault = none) : step s (.op o) = (apply s o).1 := by
  unfold step; simp [h]

theorem step_tick {s : State} (d : Bool) (h : s.fault = none) : step s (.tick d) = tick s d := by
  unfold step; simp [h]

theorem exec_fault {s : State} {is : List Input} (h : s.fault.isSome) : exec s is = s := by
  induction is with
  | nil => rfl
  | cons i is ih => rw [exec_cons, step_fault h, ih]

theorem fault_none_of_exec {s : State} {is : List Input} (h : (exec s is).fault = none) :
    s.fault = none := by
  cases hf : s.fault with
  | none => rfl
  | some f => rw [exec_fault (by simp [hf]), hf] at h; exact h

/-- Public calls can only stop the machine by an overflow. -/
theorem apply_fault {s : State} (o : Op) (hf : s.fault = none) :
    (apply s o).1.fault = none ∨ (apply s o).1.fault = some .overflow := by
  have hu : ∀ k id, (s.unpost k id).fault = none := fun k id => by
    rw [(unpost_fields s k id).2.2.2.2.2.2.2.2.2.2.2.2.1]; exact hf
  cases o <;> simp only [apply, addImmediate, addTimed, addEvent, addZulu, setTimed, setEventTime,
    setZulu, setCycle, setRepeat, remove, setSimTime, setEpochTime, setMissionStart,
    setMissionTime, State.fail, State.eraseKey] <;> (repeat' split) <;> simp_all

theorem inv_init : Inv init := by
  have hslot : ∀ k x, x ∈ slotOf init.table k ↔ (k = maxI64 ∧ x = -2) := by
    intro k x
    simp only [slotOf, init, OMap.find]
    split
    · simp_all
    · simp_all
  have hev : ∀ i e, init.events.find i = some e → i = -2 ∧ e =
      { ep := 0, next := maxI64, time := maxI64, cycle := 0, rep := 0, kind := .simulation } := by
    intro i e
    simp only [init, OMap.find]
    split
    · simp_all
    · simp
  have hev' : (init.events.find (-2)).isSome := by decide
  have htab : ∀ k l, init.table.find k = some l → k = maxI64 := by
    intro k l
    simp only [init, OMap.find]
    split
    · simp_all
    · simp
  have hat : ∀ i l, At init i l → l = .slot ∧ i = -2 := by
    intro i l h
    cases l with
    | slot => obtain ⟨k, hk⟩ := h; exact ⟨rfl, ((hslot k i).1 hk).2⟩
    | imm => simp [At, init] at h
    | immRest => simp [At, init, PC.immRest] at h
    | dueRest => simp [At, init, PC.dueRest] at h
    | running => simp [At, init, PC.running] at h
  constructor
  · simp [init, OMap.Sorted]
  · intro k
    simp only [slotOf, init, OMap.find]
    split <;> simp [IdSet.Sorted]
  · exact IdSet.sorted_nil
  · exact IdSet.sorted_nil
  · exact IdSet.sorted_nil
  · intro i l h; rw [(hat i l h).2]; exact hev'
  · intro k i e h1 h2
    have := (hslot k i).1 h1
    have := hev i e h2
    grind
  · intro i e h
    simp [init, PC.immRest, PC.immRun] at h
  · intro i e h
    simp [init, PC.dueRest, PC.dueRun] at h
  · intro i l₁ l₂ h1 h2; rw [(hat i l₁ h1).1, (hat i l₂ h2).1]
  · intro i e h1 _
    exact ⟨.slot, maxI64, (hslot _ _).2 ⟨rfl, (hev i e h1).1⟩⟩
  · intro k l h; rw [htab k l h]; decide
  · intro h; simp [init, PC.live] at h
  · intro h; simp [init, PC.live] at h
  · intro h; simp [init, PC.early] at h
  · intro h; simp [init, PC.live] at h
  · intro i e h; rw [(hev i e h).2]; simp
  · intro i e h; left; exact (hev i e h).1
  · decide
  · rfl

theorem Inv.step {s : State} (h : Inv s) (hf : s.fault = none) (i : Input) (hok : i.ok s) :
    (step s i).fault = none ∧ Inv (step s i) ∨ (Sched.step s i).fault = some .overflow := by
  unfold Sched.step
  rw [if_neg (by simp [hf])]
  cases i with
  | op o =>
    simp only
    rcases apply_fault o hf with h1 | h1
    · exact Or.inl ⟨h1, h.apply o hok h1⟩
    · exact Or.inr h1
  | run =>
    left
    simp only
    split
    · rename_i hpc
      refine ⟨hf, ?_⟩
      have h1 := h.movePC (.immTest .start) (by simp [hpc, PC.dueRest, Ret.dueRest])
        (by simp [hpc, PC.immRest]) (by simp [hpc, PC.immRun]) (by simp [hpc, PC.dueRun])
        (by simp [hpc, PC.live, Ret.live]) (by simp [hpc, PC.early]) (by simp [hpc, PC.running])
      exact h1.congr (fun _ => rfl) rfl rfl rfl rfl rfl rfl rfl rfl rfl
    · exact ⟨hf, h⟩
  | tick d => exact h.tick hf d

theorem Inv.exec {s : State} (h : Inv s) (hf : s.fault = none) (is : List Input)
    (hok : OkRun s is) :
    (exec s is).fault = none ∧ Inv (exec s is) ∨ (Sched.exec s is).fault = some .overflow := by
  induction is generalizing s with
  | nil => exact Or.inl ⟨hf, h⟩
  | cons i is ih =>
    rw [exec_cons]
    rcases h.step hf i hok.1 with ⟨h1, h2⟩ | h1
    · exact ih h2 h1 hok.2
    · right; rw [exec_fault (by simp [h1])]; exact h1

/-- States reached from the initial one by executions avoiding the known defects. -/
def Reach (s : State) : Prop := ∃ is, OkRun init is ∧ exec init is = s ∧ s.fault = none

theorem Reach.inv {s : State} (h : Reach s) : Inv s := by
  obtain ⟨is, hok, rfl, hf⟩ := h
  rcases inv_init.exec rfl is hok with h1 | h1
  · exact h1.2
  · rw [h1] at hf; simp at hf

theorem Reach.fault {s : State} (h : Reach s) : s.fault = none := by
  obtain ⟨_, _, _, hf⟩ := h; exact hf

theorem Reach.exec {s : State} (h : Reach s) {is : List Input} (hok : OkRun s is)
    (hf : (exec s is).fault = none) : Reach (exec s is) := by
  obtain ⟨js, hok', rfl, _⟩ := h
  exact ⟨js ++ is, OkRun.append.2 ⟨hok', hok⟩, by rw [exec_append], hf⟩

theorem Reach.step {s : State} (h : Reach s) {i : Input} (hok : i.ok s)
    (hf : (step s i).fault = none) : Reach (step s i) :=
  h.exec (is := [i]) ⟨hok, trivial⟩ hf

/-- Induction along an execution that avoids the defects. -/
theorem OkRun.induction {P : State → Prop} {s : State} {is : List Input} (hs : Reach s) (h0 : P s)
    (hok : OkRun s is) (hf : (Sched.exec s is).fault = none)
    (hstep : ∀ s i, Reach s → i.ok s → (Sched.step s i).fault = none → i ∈ is → P s →
      P (Sched.step s i)) :
    P (Sched.exec s is) := by
  induction is generalizing s with
  | nil => exact h0
  | cons i is ih =>
    rw [exec_cons] at hf ⊢
    have h1 := fault_none_of_exec hf
    exact ih (hs.step hok.1 h1) (hstep s i hs hok.1 h1 List.mem_cons_self h0) hok.2 hf
      (fun s j a b c d e => hstep s j a b c (List.mem_cons_of_mem _ d) e)

end Verif.Sched
