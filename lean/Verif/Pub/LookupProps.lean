import Verif.Pub.Lookup
import Verif.Pub.OperProps

/-! Property C165: parameters found by their names. -/
namespace Verif.Pub.Lookup
open Verif.Path (Str)

/-! ### Lemmas -/

theorem find_name {l : List Param} {n : Str} {p : Param}
    (h : l.find? (fun p => some p.name == some n) = some p) : p ∈ l ∧ p.name = n :=
  ⟨List.mem_of_find?_eq_some h, by simpa using List.find?_some h⟩

theorem eq_of_name {l : List Param} (hn : (l.map Param.name).Nodup) {p q : Param} (hp : p ∈ l)
    (hq : q ∈ l) (h : p.name = q.name) : p = q := by
  induction l with
  | nil => cases hp
  | cons x l ih =>
    rw [List.map_cons, List.nodup_cons] at hn
    rcases List.mem_cons.1 hp with e | hp' <;> rcases List.mem_cons.1 hq with e' | hq'
    · rw [e, e']
    · exact absurd (List.mem_map.2 ⟨q, hq', by rw [← h, e]⟩) hn.1
    · exact absurd (List.mem_map.2 ⟨p, hp', by rw [h, e']⟩) hn.1
    · exact ih hn.2 hp' hq'

theorem distinct {R : Registry} {o : Oper} (h : o.Good R) : ((allParams o).map Param.name).Nodup := by
  unfold allParams
  cases hr : o.ret with
  | none => simpa using h.nodup
  | some r =>
    simp only [Option.toList_some, List.map_append, List.map_cons, List.map_nil]
    rw [List.nodup_append]
    refine ⟨h.nodup, by simp, ?_⟩
    intro x hx y hy hxy
    rw [List.mem_singleton] at hy
    subst hxy hy
    exact (h.ret r hr).1 hx

/-! ### Property C165 -/

/-- C165. After any calls on the registry and the publication, the parameters of an operation, with the
return value, have names that differ, and `GetParameter` with a name gives the one of this name, or null
if there is none. -/
theorem C165_named (pcs : List PCall) (o : Oper) (ho : o ∈ (prun (initial, ⟨[], []⟩) pcs).2.opers)
    (name : Str) :
    ((allParams o).map Param.name).Nodup ∧
    (∀ p, getParameter o (some name) = .param p ↔ p ∈ allParams o ∧ p.name = name) ∧
    (getParameter o (some name) = .null ↔ ∀ p ∈ allParams o, p.name ≠ name) := by
  have hd := distinct ((good_prun pcs good_start).opers o ho)
  refine ⟨hd, ?_⟩
  have key : (∃ p ∈ allParams o, p.name = name ∧ getParameter o (some name) = .param p) ∨
      (getParameter o (some name) = .null ∧ ∀ p ∈ allParams o, p.name ≠ name) := by
    unfold getParameter
    cases hf : o.params.find? (fun p => some p.name == some name) with
    | some p =>
      obtain ⟨h1, h2⟩ := find_name hf
      exact Or.inl ⟨p, List.mem_append_left _ h1, h2, rfl⟩
    | none =>
      have hno : ∀ p ∈ o.params, p.name ≠ name := by
        intro p hp
        simpa using List.find?_eq_none.1 hf p hp
      unfold allParams
      cases hr : o.ret with
      | none => exact Or.inr ⟨rfl, by simpa using hno⟩
      | some r =>
        by_cases hn : r.name = name
        · exact Or.inl ⟨r, by simp, hn, by simp [hn]⟩
        · refine Or.inr ⟨by simp [hn], ?_⟩
          intro p hp
          rcases List.mem_append.1 hp with hp | hp
          · exact hno p hp
          · rw [Option.toList_some, List.mem_singleton] at hp
            rw [hp]; exact hn
  rcases key with ⟨q, hq, hqn, e⟩ | ⟨e, hno⟩
  · refine ⟨fun p => ⟨fun h => ?_, fun h => ?_⟩, fun h => ?_, fun h => absurd hqn (h q hq)⟩
    · rw [e] at h; cases h; exact ⟨hq, hqn⟩
    · rw [e, eq_of_name hd h.1 hq (h.2.trans hqn.symm)]
    · rw [e] at h; cases h
  · refine ⟨fun p => ⟨fun h => ?_, fun h => absurd h.2 (hno p h.1)⟩, fun _ => hno, fun _ => e⟩
    rw [e] at h; cases h

/-- The operation `f(n, m) : r`. -/
example : demoOper ∈ (prun (initial, ⟨[], []⟩) demoPub).2.opers ∧
    getParameter demoOper (some "m".toList) = .param ⟨"m".toList, primUuid .Bool, .out⟩ ∧
    getParameter demoOper (some "r".toList) = .param ⟨"r".toList, primUuid .Float64, .return⟩ ∧
    getParameter demoOper (some "x".toList) = .null :=
  ⟨by rw [show (prun (initial, ⟨[], []⟩) demoPub).2.opers = [demoOper] from rfl]; simp, rfl, rfl, rfl⟩

/-- C165 is false of the code for a null pointer: whenever the operation has a return value, the behaviour
is undefined; otherwise null is given. -/
theorem C165_null_fails (o : Oper) :
    (o.ret.isSome = true → getParameter o none = .undefined) ∧
    (o.ret.isSome = false → getParameter o none = .null) := by
  have hf : o.params.find? (fun p => some p.name == none) = none := by
    rw [List.find?_eq_none]; intro p _; simp
  unfold getParameter
  rw [hf]
  cases o.ret <;> simp

example : demoOper.ret.isSome = true := rfl

end Verif.Pub.Lookup
