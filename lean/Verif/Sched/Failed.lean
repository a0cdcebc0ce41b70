import Verif.Sched.Persist

/-
C133: what is left of the scheduler when its `Restore` fails (XsmpScheduler.cpp:572-576).
-/
namespace Verif.Sched

open Verif.Persist

/-! ### Lemmas -/

theorem readSize_short {b : List Nat} (h : b.length < 8) : readSize b = none := by
  unfold readSize readInto
  rw [if_neg (by omega)]

theorem restoreTyped_cut (E : Env) (hash : Ty → Nat) (hh : ∀ t, hash t < 2 ^ 64) {cut : List Nat}
    (hc : cut.length < 8) (z : Dyn) (zs : List Dyn) : ∀ (xs ys : List Dyn),
      xs.map (·.1) = ys.map (·.1) →
      (∀ x ∈ xs, Valid E x.1 x.2) → (∀ y ∈ ys, Shape y.1 y.2) →
      restoreTyped E hash (ys ++ z :: zs) (storeTyped E hash xs ++ cut) = (xs ++ z :: zs, none)
  | [], [], _, _, _ => by
    simp only [List.nil_append, storeTyped, List.flatMap_nil, restoreTyped, restoreTyped1,
      readSize_short hc]
  | [], _ :: _, h, _, _ => by simp at h
  | _ :: _, [], h, _, _ => by simp at h
  | ⟨t, v⟩ :: xs, ⟨t', o⟩ :: ys, h, hx, hy => by
    simp only [List.map_cons, List.cons.injEq] at h
    obtain ⟨rfl, h⟩ := h
    have ih := restoreTyped_cut E hash hh hc z zs xs ys h
      (fun x hx' => hx x (List.mem_cons_of_mem _ hx'))
      (fun y hy' => hy y (List.mem_cons_of_mem _ hy'))
    simp only [storeTyped, List.flatMap_cons, List.append_assoc, List.cons_append,
      restoreTyped] at ih ⊢
    rw [C43_match E hash t v o _ (hh _) (hx _ List.mem_cons_self) (hy _ List.mem_cons_self)]
    simp only [ih]

/-! ### C133 -/

/-- C133 (part): a file that is refused at its beginning (it is empty or too short, or the type
found in it is not that of `_events`) leaves the scheduler as it was. Missing: a file refused
later (`C133_cut`, `C133_run_fails`, `C133_id_fails`). -/
theorem C133_refused_partial {E : Env} {hash : Ty → Nat} {s : State} (hr : Range s) (b : List Nat)
    (h : b.length < 8 ∨ ∃ n rest, readSize b = some (n, rest) ∧ n ≠ hash eventsT) :
    restoreSched E hash s b = (s, none) := by
  have h1 : restoreTyped1 E hash ⟨eventsT, encEvents s.events⟩ b =
      (⟨eventsT, encEvents s.events⟩, none) := by
    unfold restoreTyped1
    rcases h with h | ⟨n, rest, h, hn⟩
    · rw [readSize_short h]
    · rw [h]; simp only; rw [if_pos hn]
  unfold restoreSched
  simp only [schedVals, restoreTyped, h1]
  simp only [State.ofVals, fromDyn_self, dec_enc_events hr.events,
    dec_enc_table hr.table, map_dec_enc_list hr.imm, decI64_encI64 hr.last]

/-- C133: exactly what is left when the file ends before, or within, the mark of the `k`th of the
four values: `CannotRestore` is raised, the values before are those of the breakpoint, the others
those of before. -/
theorem C133_cut {E : Env} {hash : Ty → Nat} (he : EnvOk E) (hh : ∀ t, hash t < 2 ^ 64)
    {s old : State} (hr : Range s) (hp : Rep s) (hq : Resolvable E s) (ho : Range old)
    (k : Nat) (hk : k < 4) (cut : List Nat) (hc : cut.length < 8) :
    restoreSched E hash old (storeTyped E hash ((schedVals s).take k) ++ cut) =
      ({ old with
          events := if 0 < k then s.events else old.events
          table := if 1 < k then s.table else old.table
          imm := if 2 < k then s.imm else old.imm }, none) := by
  have hv := schedVals_valid he hr hp hq
  have hs := schedVals_shape old
  have key : ∀ (z : Dyn) (zs : List Dyn) , schedVals old = (schedVals old).take k ++ z :: zs →
      restoreTyped E hash (schedVals old) (storeTyped E hash ((schedVals s).take k) ++ cut) =
        ((schedVals s).take k ++ z :: zs, none) := by
    intro z zs hz
    conv => lhs; rw [hz]
    refine restoreTyped_cut E hash hh hc z zs _ _ ?_ ?_ ?_
    · rw [List.map_take, List.map_take]; rfl
    · exact fun x hx => hv x (List.mem_of_mem_take hx)
    · exact fun x hx => hs x (List.mem_of_mem_take hx)
  unfold restoreSched
  match k, hk with
  | 0, _ =>
    rw [key _ _ rfl]
    simp [schedVals, State.ofVals, fromDyn_self, dec_enc_events ho.events,
      dec_enc_table ho.table, map_dec_enc_list ho.imm, decI64_encI64 ho.last]
  | 1, _ =>
    rw [key _ _ rfl]
    simp [schedVals, State.ofVals, fromDyn_self, dec_enc_events hr.events,
      dec_enc_table ho.table, map_dec_enc_list ho.imm, decI64_encI64 ho.last]
  | 2, _ =>
    rw [key _ _ rfl]
    simp [schedVals, State.ofVals, fromDyn_self, dec_enc_events hr.events,
      dec_enc_table hr.table, map_dec_enc_list ho.imm, decI64_encI64 ho.last]
  | 3, _ =>
    rw [key _ _ rfl]
    simp [schedVals, State.ofVals, fromDyn_self, dec_enc_events hr.events,
      dec_enc_table hr.table, map_dec_enc_list hr.imm, decI64_encI64 ho.last]

/-- A scheduler with one event at simulation time 10. -/
def exOne : List Input := [.op (.addTimed .simulation 5 10 0 0)]

/-- C133 is false: after a `Restore` that raised `CannotRestore`, because the file of a breakpoint
without events ends after its first value, the table of due times still has the event that was
pending, which `_events` does not know any more: when the simulation is run, `_events.at` raises
`std::out_of_range`. -/
theorem C133_run_fails : ∃ (s old : State) (n : Nat), Reach s ∧ Reach old ∧ old.pc = .idle ∧
    (let r := restoreSched exEnvS exHash old ((storeSched exEnvS exHash s).take n)
     r.2 = none ∧ r.1.fault = none ∧
     (exec r.1 (.run :: List.replicate 8 (.tick false))).fault = some .outOfRange ∧
     (exec old (.run :: List.replicate 8 (.tick false))).log = [.called 0 5 10]) := by
  refine ⟨init, exec init exOne, (storeTyped exEnvS exHash ((schedVals init).take 1)).length,
    ⟨[], by decide, rfl, by decide⟩, ⟨exOne, by decide, rfl, by decide⟩, ?_⟩
  decide +kernel

/-- C133 is false: when the file ends before the last of the four values, the events are those of
the breakpoint but the last identifier is the old one: the next event that is added gets the
identifier of an event that is pending. (Then `try_emplace` keeps the pending one, and the entry
point of the new one is never called: XsmpScheduler.cpp:156-158.) -/
theorem C133_id_fails : ∃ (s : State) (n : Nat), Reach s ∧
    (let r := restoreSched exEnvS exHash init ((storeSched exEnvS exHash s).take n)
     r.2 = none ∧ (r.1.events.find 0).map (·.ep) = some 5 ∧ slotOf r.1.table 10 = [0] ∧
     (apply r.1 (.addTimed .simulation 7 20 0 0)).2 = .id 0) := by
  refine ⟨exec init exOne, (storeTyped exEnvS exHash ((schedVals (exec init exOne)).take 3)).length,
    ⟨exOne, by decide, rfl, by decide⟩, ?_⟩
  decide +kernel

-- Hypotheses of `C133_refused_partial` and `C133_cut`.
example : Range (exec init exSched) ∧ Rep (exec init exSched) ∧
    Resolvable exEnvS (exec init exSched) ∧ EnvOk exEnvS ∧ Range init := by
  refine ⟨⟨?_, ?_, ?_, ?_, ?_, ?_⟩, ?_, ?_, exEnvS_ok, ⟨?_, ?_, ?_, ?_, ?_, ?_⟩⟩
  · simp only [IdSet.InRange]; decide
  · simp only [IdSet.InRange]; decide
  · simp only [IdSet.InRange]; decide
  · simp only [IdSet.InRange]; decide
  · simp only [IdSet.InRange]; decide
  · decide
  · exact Reach.rep ⟨exSched, by decide, rfl, by decide⟩
  · unfold Resolvable; decide
  · simp only [IdSet.InRange]; decide
  · simp only [IdSet.InRange]; decide
  · simp only [IdSet.InRange]; decide
  · simp only [IdSet.InRange]; decide
  · simp only [IdSet.InRange]; decide
  · decide

end Verif.Sched
