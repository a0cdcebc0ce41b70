import Verif.Sched.Model

/-
Invariants of the scheduler machine.
-/
namespace Verif.Sched

/-! ### Views on the program counter -/

/-- Rest of the batch of due events the caller of `ExecuteImmediateEvents` holds. -/
def Ret.dueRest : Ret → List Int
  | .inSlot rest => rest
  | _ => []

/-- The caller is inside the loop of line 612. -/
def Ret.live : Ret → Bool
  | .start => false
  | _ => true

/-- Due events swapped out of their slot and not executed yet (`current`, line 480). -/
def PC.dueRest : PC → List Int
  | .immTest r => r.dueRest
  | .immFor _ r => r.dueRest
  | .slotFor rest => rest
  | .cb _ (.imm _ r) => r.dueRest
  | .cb _ (.due rest) => rest
  | _ => []

/-- Immediate events swapped out and not executed yet (`events`, line 498). -/
def PC.immRest : PC → List Int
  | .immFor rest _ => rest
  | .cb _ (.imm rest _) => rest
  | _ => []

/-- The event whose entry point is running. -/
def PC.running : PC → Option Int
  | .cb id _ => some id
  | _ => none

/-- The immediate event whose entry point is running. -/
def PC.immRun : PC → Option Int
  | .cb id (.imm _ _) => some id
  | _ => none

/-- The due event whose entry point is running. -/
def PC.dueRun : PC → Option Int
  | .cb id (.due _) => some id
  | _ => none

/-- The thread is inside the body of the loop of line 612. -/
def PC.live : PC → Bool
  | .idle => false
  | .immTest r => r.live
  | .immFor _ r => r.live
  | .cb _ (.imm _ r) => r.live
  | _ => true

/-- Inside the loop body, before the simulation time is set (lines 617-647). -/
def PC.early : PC → Bool
  | .preEmit => true
  | .waiting => true
  | _ => false

/-- The five places where an event can wait or run. -/
inductive Loc | slot | imm | immRest | dueRest | running
  deriving DecidableEq

/-- Event `id` is at place `l`. -/
def At (s : State) (id : Int) : Loc → Prop
  | .slot => ∃ k, id ∈ slotOf s.table k
  | .imm => id ∈ s.imm
  | .immRest => id ∈ s.pc.immRest
  | .dueRest => id ∈ s.pc.dueRest
  | .running => s.pc.running = some id

/-- The invariant of well-behaved executions. -/
structure Inv (s : State) : Prop where
  tsorted : s.table.Sorted
  ssorted : ∀ k, IdSet.Sorted (slotOf s.table k)
  isorted : IdSet.Sorted s.imm
  irsorted : IdSet.Sorted s.pc.immRest
  drsorted : IdSet.Sorted s.pc.dueRest
  exist : ∀ id l, At s id l → (s.events.find id).isSome
  slots : ∀ k id e, id ∈ slotOf s.table k → s.events.find id = some e →
    e.next = k ∧ e.kind ≠ .zulu
  imms : ∀ id e, id ∈ s.imm ∨ id ∈ s.pc.immRest ∨ s.pc.immRun = some id →
    s.events.find id = some e → e.rep = 0 ∧ e.kind = .simulation
  dues : ∀ id e, id ∈ s.pc.dueRest ∨ s.pc.dueRun = some id →
    s.events.find id = some e → e.next = s.iter ∧ e.kind ≠ .zulu
  uniq : ∀ id l₁ l₂, At s id l₁ → At s id l₂ → l₁ = l₂
  cover : ∀ id e, s.events.find id = some e → e.kind ≠ .zulu → ∃ l, At s id l
  nowKeys : ∀ k l, s.table.find k = some l → s.now ≤ k
  liveKeys : s.pc.live → ∀ k l, s.table.find k = some l → s.iter ≤ k
  liveIt : s.pc.live → s.itOk = true ∧ ∃ l, s.table.find s.iter = some l
  early : s.pc.early → s.changing = true
  late : s.pc.live → s.pc.early = false → s.now = s.iter ∧ s.changing = false
  pos : ∀ id e, s.events.find id = some e → e.rep ≠ 0 → 0 < e.cycle
  ids : ∀ id e, s.events.find id = some e → id = -2 ∨ (0 ≤ id ∧ id ≤ s.lastId)
  last : -1 ≤ s.lastId ∧ s.lastId ≤ maxI64
  cur : s.current = s.pc.running.getD (-1)

/-! ### Slots -/

theorem slotOf_insert (m : OMap (List Int)) (j k : Int) (l : List Int) :
    slotOf (m.insert k l) j = if j = k then l else slotOf m j := by
  unfold slotOf; rw [OMap.find_insert]; split <;> rfl

theorem slotOf_erase (m : OMap (List Int)) (j k : Int) :
    slotOf (m.erase k) j = if j = k then [] else slotOf m j := by
  unfold slotOf; rw [OMap.find_erase]; split <;> rfl

theorem mem_slotOf_post {m : OMap (List Int)} {j k id x : Int} :
    x ∈ slotOf (post m k id) j ↔ (j = k ∧ x = id) ∨ x ∈ slotOf m j := by
  unfold post; rw [slotOf_insert]; split
  · subst_vars; rw [IdSet.mem_insert]; simp
  · simp_all

theorem find_post {m : OMap (List Int)} {j k id : Int} :
    (post m k id).find j = if j = k then some (IdSet.insert id (slotOf m k)) else m.find j := by
  unfold post; rw [OMap.find_insert]

theorem mem_slotOf {m : OMap (List Int)} {k x : Int} (h : x ∈ slotOf m k) :
    ∃ l, m.find k = some l ∧ x ∈ l := by
  unfold slotOf at h
  cases hf : m.find k with
  | none => simp [hf] at h
  | some l => exact ⟨l, rfl, by simpa [hf] using h⟩

theorem unpost_table (s : State) (k id : Int) (j x : Int) :
    x ∈ slotOf (s.unpost k id).table j ↔ x ∈ slotOf s.table j ∧ ¬ (j = k ∧ x = id) := by
  unfold State.unpost
  simp only
  split
  · rename_i h
    simp only [State.eraseKey, slotOf_erase]
    split
    · subst_vars
      constructor
      · simp
      · intro ⟨h1, h2⟩
        have : x ∈ IdSet.erase id (slotOf s.table j) :=
          IdSet.mem_erase.2 ⟨h1, fun hx => h2 ⟨rfl, hx⟩⟩
        rw [h] at this; exact this
    · constructor
      · intro h1; exact ⟨h1, by rintro ⟨rfl, _⟩; contradiction⟩
      · exact fun h1 => h1.1
  · simp only [slotOf_insert]
    split
    · subst_vars; rw [IdSet.mem_erase]; simp
    · constructor
      · intro h1; exact ⟨h1, by rintro ⟨rfl, _⟩; contradiction⟩
      · exact fun h1 => h1.1

theorem chk_some {x y : Int} (h : chk x = some y) : y = x ∧ minI64 ≤ x ∧ x ≤ maxI64 := by
  unfold chk at h; split at h
  · simp at h; exact ⟨h.symm, by assumption⟩
  · simp at h

/-- A sum of times is kept exactly when it is a number of 64 bits with a sign. -/
theorem chk_range (x : Int) : (chk x = some x ↔ -2 ^ 63 ≤ x ∧ x < 2 ^ 63) ∧
    (chk x = none ↔ x < -2 ^ 63 ∨ 2 ^ 63 ≤ x) := by
  unfold chk minI64 maxI64
  split
  · rename_i h; simp; omega
  · rename_i h; simp; omega

end Verif.Sched
