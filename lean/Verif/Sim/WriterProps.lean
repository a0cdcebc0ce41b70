import Verif.Sim.Writer
/-! C116: the breakpoint file on the disk (src/Xsmp/Simulator.cpp:394-421,
src/Xsmp/StorageWriter.cpp:30-67). -/
namespace Verif.Sim.Writer
open Verif.Sim.Bp

/-- The bytes given to the writer. -/
def bytes : List Call → Bytes
  | [] => []
  | .raise :: _ => []
  | .block d _ :: cs => d ++ bytes cs

/-- Nothing raises by itself. -/
def Quiet (cs : List Call) : Prop := .raise ∉ cs

/-- The buffer holds at most `n` bytes after each call, those before being `p` bytes. -/
def Buffered (n : Nat) : Nat → List Call → Prop
  | _, [] => True
  | p, .raise :: cs => Buffered n p cs
  | p, .block d k :: cs => p + d.length - k ≤ n ∧ Buffered n (p + d.length - k) cs

/-! ### Lemmas -/

theorem write_ok {room : Nat} {o : Out} {d : Bytes} {k : Nat} (h : (o.write room d k).2 = false) :
    (o.write room d k).1.file ++ (o.write room d k).1.pending = o.file ++ (o.pending ++ d) ∧
    o.file <+: (o.write room d k).1.file ∧
    (o.write room d k).1.pending.length = o.pending.length + d.length - k ∧
    (o.file.length ≤ room → (o.write room d k).1.file.length ≤ room) := by
  unfold Out.write Out.flush at h ⊢
  split
  · next hr =>
    refine ⟨?_, ⟨_, rfl⟩, ?_, ?_⟩
    · dsimp only
      rw [List.append_assoc, List.take_append_drop]
    · simp
    · intro _
      simpa using hr
  · next hr => rw [if_neg hr] at h; cases h

theorem calls_ok {room : Nat} : (cs : List Call) → {o : Out} → (o.calls room cs).2 = false →
    (o.calls room cs).1.file ++ (o.calls room cs).1.pending = o.file ++ (o.pending ++ bytes cs) ∧
    (o.file.length ≤ room → (o.calls room cs).1.file.length ≤ room) ∧
    (∀ n, Buffered n o.pending.length cs → o.pending.length ≤ n →
      (o.calls room cs).1.pending.length ≤ n)
  | [], o, _ => ⟨by simp [Out.calls, bytes], fun h => h, fun _ _ h => h⟩
  | .raise :: _, o, h => by cases h
  | .block d k :: cs, o, h => by
    unfold Out.calls at h ⊢
    split at h
    · cases h
    · next hw =>
      have hw : (o.write room d k).2 = false := by simpa using hw
      have w := write_ok hw
      have r := calls_ok cs h
      rw [if_neg (by simp [hw])]
      refine ⟨?_, fun ho => r.2.1 (w.2.2.2 ho), ?_⟩
      · rw [r.1, ← List.append_assoc, w.1, bytes]
        simp
      · intro n hb _
        refine r.2.2 n ?_ ?_
        · rw [w.2.2.1]; exact hb.2
        · rw [w.2.2.1]; exact hb.1

/-- With room for everything, nothing raises. -/
theorem calls_room {room : Nat} : (cs : List Call) → {o : Out} → Quiet cs →
    (o.file ++ (o.pending ++ bytes cs)).length ≤ room → (o.calls room cs).2 = false
  | [], o, _, _ => rfl
  | .raise :: _, o, hq, _ => absurd (List.mem_cons_self ..) hq
  | .block d k :: cs, o, hq, hr => by
    have hw : (o.write room d k).2 = false := by
      unfold Out.write Out.flush
      rw [if_pos]
      simp only [bytes, List.length_append] at hr
      have h2 : ((o.pending ++ d).take k).length ≤ o.pending.length + d.length := by
        simp; omega
      show o.file.length + ((o.pending ++ d).take k).length ≤ room
      omega
    unfold Out.calls
    rw [if_neg (by simp [hw])]
    refine calls_room cs (fun h => hq (List.mem_cons_of_mem _ h)) ?_
    rw [← List.append_assoc, (write_ok hw).1]
    simpa [bytes] using hr

/-- The file is always a beginning of the bytes. -/
theorem calls_prefix {room : Nat} : (cs : List Call) → {o : Out} →
    (o.calls room cs).1.file ++ (o.calls room cs).1.pending <+: o.file ++ (o.pending ++ bytes cs)
  | [], o => ⟨[], by simp [Out.calls, bytes]⟩
  | .raise :: _, o => ⟨[], by simp [Out.calls, bytes]⟩
  | .block d k :: cs, o => by
    unfold Out.calls
    split
    · next hw =>
      unfold Out.write Out.flush at hw ⊢
      split
      · next hr => rw [if_pos hr] at hw; cases hw
      · dsimp only
        rw [List.append_nil, List.prefix_append_right_inj]
        refine (List.take_prefix _ _).trans ⟨bytes cs, ?_⟩
        rw [bytes, List.append_assoc]
    · next hw =>
      have hw : (o.write room d k).2 = false := by simpa using hw
      have r := calls_prefix cs (o := (o.write room d k).1) (room := room)
      rw [← List.append_assoc, (write_ok hw).1] at r
      rw [bytes]
      simpa using r

theorem close_prefix {room : Nat} {o : Out} : o.close room <+: o.file ++ o.pending := by
  unfold Out.close
  rw [List.prefix_append_right_inj]
  exact List.take_prefix _ _

/-! ### The claims -/

/-- **C116** (complete). If the device has room for the state and nothing raises by itself, `Store`
does not raise, and when it has returned the file holds exactly the bytes of the state, whatever
was in it before, and whenever the standard library writes its buffer. Missing: devices without
room (`C116_full_fails`). -/
theorem C116_complete_partial (room : Nat) (old : Bytes) (cs : List Call) (hq : Quiet cs)
    (hr : (bytes cs).length ≤ room) :
    (store room true old cs).raised = false ∧ (store room true old cs).file = bytes cs := by
  have h := calls_room (room := room) cs (o := ⟨[], []⟩) hq (by simpa using hr)
  have c := calls_ok cs h
  simp only [List.nil_append] at c
  unfold store
  simp only [Bool.not_true, Bool.false_eq_true, if_false, h]
  refine ⟨trivial, ?_⟩
  have hl := congrArg List.length c.1
  simp only [List.length_append] at hl
  unfold Out.close
  rw [List.take_of_length_le (by omega), c.1]

/-- **C116** (at any time). Whatever happens, the file holds a beginning of the bytes of the state,
when the entry points of the events see it and afterwards. -/
theorem C116_prefix (room : Nat) (old : Bytes) (cs : List Call) :
    (store room true old cs).file <+: bytes cs ∧
    ∀ b, (store room true old cs).standby = some b → b <+: bytes cs := by
  have p := calls_prefix (room := room) cs (o := ⟨[], []⟩)
  simp only [List.nil_append] at p
  unfold store
  simp only [Bool.not_true, Bool.false_eq_true, if_false]
  split
  · exact ⟨close_prefix.trans p, fun b h => by cases h⟩
  · exact ⟨close_prefix.trans p, fun b h => by cases h; exact (List.prefix_append ..).trans p⟩

/-- **C116** (told). A state that is larger than the device by more than the buffer is not stored
silently: `Store` raises. What is missing in the file after a `Store` that returned is at most what
the buffer holds. -/
theorem C116_told_partial (room n : Nat) (old : Bytes) (cs : List Call) (hb : Buffered n 0 cs) :
    ((store room true old cs).raised = false →
      (bytes cs).length - (store room true old cs).file.length ≤ n) ∧
    (room + n < (bytes cs).length → (store room true old cs).raised = true) := by
  have key : (Out.calls room ⟨[], []⟩ cs).2 = false →
      (Out.calls room ⟨[], []⟩ cs).1.file.length ≤ room ∧
      (Out.calls room ⟨[], []⟩ cs).1.pending.length ≤ n ∧
      (Out.calls room ⟨[], []⟩ cs).1.file.length + (Out.calls room ⟨[], []⟩ cs).1.pending.length =
        (bytes cs).length := by
    intro h
    have c := calls_ok cs h
    have hl := congrArg List.length c.1
    simp only [List.nil_append, List.length_append] at hl
    exact ⟨c.2.1 (Nat.zero_le _), c.2.2 n hb (Nat.zero_le _), hl⟩
  unfold store
  simp only [Bool.not_true, Bool.false_eq_true, if_false]
  cases h : (Out.calls room ⟨[], []⟩ cs).2 with
  | true => simp
  | false =>
    have k := key h
    simp only [Bool.false_eq_true, if_false]
    refine ⟨fun _ => ?_, fun hr => by omega⟩
    unfold Out.close
    simp only [List.length_append]
    omega

/-- **C116** (what is stored can be restored). The file written for an object, in whatever blocks,
gives it back its state, as C30 says. -/
theorem C116_restore_partial (o now : Obj) (hs : o.same now) (room : Nat) (old : Bytes)
    (cs : List Call) (hq : Quiet cs) (hc : bytes cs = o.store) (hr : o.store.length ≤ room) :
    now.restore (store room true old cs).file =
      some (.mk o.persist
        (match o.fields, now.fields with
         | some fs, some gs => some (expectAll fs gs)
         | _, _ => none) now.ctns, []) := by
  rw [(C116_complete_partial room old cs hq (hc ▸ hr)).2, hc]
  have := C30_partial o now hs []
  rwa [List.append_nil] at this

/-! ### A file that was cut off is refused -/

theorem read_frame {n : Nat} {b h t : Bytes} (q : Bytes) (e : Bp.read n b = some (h, t)) :
    Bp.read n (b ++ q) = some (h, t ++ q) := by
  unfold Bp.read at e ⊢
  split at e
  · next hl =>
    cases e
    rw [if_pos (by rw [List.length_append]; omega), List.take_append_of_le_length hl,
      List.drop_append_of_le_length hl]
  · cases e

theorem check_frame {k : Kind} {b t : Bytes} (q : Bytes) (e : check k b = some t) :
    check k (b ++ q) = some (t ++ q) := by
  unfold check at e ⊢
  split at e
  · next h' t' hr =>
    rw [read_frame q hr]
    dsimp only
    split at e
    · next hk => cases e; rw [if_pos hk]
    · cases e
  · cases e

mutual
theorem fld_frame (q : Bytes) : (f : Fld) → {b : Bytes} → {g : Fld} → {t : Bytes} →
    f.restore b = some (g, t) → f.restore (b ++ q) = some (g, t ++ q)
  | .simple st d, b, g, t, e => by
    unfold Fld.restore at e ⊢
    split at e
    · next hs =>
      rw [if_pos hs]
      obtain ⟨⟨h, r⟩, hr, e'⟩ := Option.map_eq_some_iff.mp e
      cases e'
      rw [read_frame q hr]; rfl
    · next hs => rw [if_neg hs]; cases e; rfl
  | .group st items, b, g, t, e => by
    unfold Fld.restore at e ⊢
    split at e
    · next hs =>
      rw [if_pos hs]
      obtain ⟨⟨h, r⟩, hr, e'⟩ := Option.map_eq_some_iff.mp e
      cases e'
      rw [all_frame q items hr]; rfl
    · next hs => rw [if_neg hs]; cases e; rfl
theorem all_frame (q : Bytes) : (fs : List Fld) → {b : Bytes} → {gs : List Fld} → {t : Bytes} →
    restoreAll fs b = some (gs, t) → restoreAll fs (b ++ q) = some (gs, t ++ q)
  | [], b, gs, t, e => by unfold restoreAll at e ⊢; cases e; rfl
  | f :: fs, b, gs, t, e => by
    unfold restoreAll at e ⊢
    simp only [Option.bind_eq_bind, Option.pure_def, Option.bind_eq_some_iff] at e
    obtain ⟨⟨f', b'⟩, h1, ⟨fs', b''⟩, h2, h3⟩ := e
    cases h3
    simp only [fld_frame q f h1, all_frame q fs h2, Option.bind_eq_bind, Option.pure_def,
      Option.bind_some]
end

theorem fields_frame (q : Bytes) : (fs : List Fld) → {b : Bytes} → {gs : List Fld} → {t : Bytes} →
    restoreFields fs b = some (gs, t) → restoreFields fs (b ++ q) = some (gs, t ++ q)
  | [], b, gs, t, e => by unfold restoreFields at e ⊢; cases e; rfl
  | f :: fs, b, gs, t, e => by
    unfold restoreFields at e ⊢
    simp only [Option.bind_eq_bind, Option.pure_def, Option.bind_eq_some_iff] at e
    obtain ⟨b0, h0, ⟨f', b'⟩, h1, ⟨fs', b''⟩, h2, h3⟩ := e
    cases h3
    simp only [check_frame q h0, fld_frame q f h1, fields_frame q fs h2, Option.bind_eq_bind,
      Option.pure_def, Option.bind_some]

theorem ctns_frame (q : Bytes) : (cs : List (List Obj)) → {b : Bytes} → {ds : List (List Obj)} →
    {t : Bytes} → restoreCtns cs b = some (ds, t) → restoreCtns cs (b ++ q) = some (ds, t ++ q)
  | [], b, gs, t, e => by unfold restoreCtns at e ⊢; cases e; rfl
  | c :: cs, b, gs, t, e => by
    unfold restoreCtns at e ⊢
    simp only [Option.bind_eq_bind, Option.pure_def, Option.bind_eq_some_iff, restoreCtn] at e ⊢
    obtain ⟨b0, h0, ⟨f', b'⟩, h1, ⟨fs', b''⟩, h2, h3⟩ := e
    cases h3
    cases h1
    refine ⟨_, check_frame q h0, _, rfl, _, ctns_frame q cs h2, rfl⟩

theorem obj_frame (q : Bytes) (o : Obj) {b : Bytes} {o' : Obj} {t : Bytes}
    (e : o.restore b = some (o', t)) : o.restore (b ++ q) = some (o', t ++ q) := by
  obtain ⟨p, f, c⟩ := o
  unfold Obj.restore at e ⊢
  cases p <;> cases f <;> cases c <;>
    simp only [Option.bind_eq_bind, Option.pure_def, Option.bind_some,
      Option.bind_eq_some_iff] at e ⊢
  · cases e; rfl
  · obtain ⟨bc, gc, ⟨xc, yc⟩, hc, e⟩ := e
    cases e
    exact ⟨_, check_frame q gc, _, ctns_frame q _ hc, rfl⟩
  · obtain ⟨bf, gf, ⟨xf, yf⟩, hf, e⟩ := e
    cases e
    exact ⟨_, check_frame q gf, _, fields_frame q _ hf, rfl⟩
  · obtain ⟨bf, gf, ⟨xf, yf⟩, hf, bc, gc, ⟨xc, yc⟩, hc, e⟩ := e
    cases e
    exact ⟨_, check_frame q gf, _, fields_frame q _ hf, _, check_frame q gc, _, ctns_frame q _ hc, rfl⟩
  · obtain ⟨bp, gp, ⟨xp, yp⟩, hp, e⟩ := e
    cases e
    exact ⟨_, check_frame q gp, _, read_frame q hp, rfl⟩
  · obtain ⟨bp, gp, ⟨xp, yp⟩, hp, bc, gc, ⟨xc, yc⟩, hc, e⟩ := e
    cases e
    exact ⟨_, check_frame q gp, _, read_frame q hp, _, check_frame q gc, _, ctns_frame q _ hc, rfl⟩
  · obtain ⟨bp, gp, ⟨xp, yp⟩, hp, bf, gf, ⟨xf, yf⟩, hf, e⟩ := e
    cases e
    exact ⟨_, check_frame q gp, _, read_frame q hp, _, check_frame q gf, _, fields_frame q _ hf, rfl⟩
  · obtain ⟨bp, gp, ⟨xp, yp⟩, hp, bf, gf, ⟨xf, yf⟩, hf, bc, gc, ⟨xc, yc⟩, hc, e⟩ := e
    cases e
    exact ⟨_, check_frame q gp, _, read_frame q hp, _, check_frame q gf, _, fields_frame q _ hf, _, check_frame q gc, _, ctns_frame q _ hc, rfl⟩

/-- **C116** (cut off). A file that holds only a beginning of what was stored for an object is
refused when the object is restored: `Restore` raises. So what `C116_prefix` leaves open is
noticed at the latest then. -/
theorem C116_cut (o now : Obj) (hs : o.same now) (b q : Bytes) (hb : o.store = b ++ q)
    (hq : q ≠ []) : now.restore b = none := by
  cases h : now.restore b with
  | none => rfl
  | some r =>
    obtain ⟨o', t⟩ := r
    have e := obj_frame q now h
    have c := C30_partial o now hs []
    rw [List.append_nil, hb, e] at c
    have : t ++ q = [] := congrArg Prod.snd (Option.some.inj c)
    exact absurd (List.append_eq_nil_iff.mp this).2 hq

/-! ### Where it fails -/

/-- **C116 fails** on a full device: the last bytes are written by the destructor of the stream,
which ignores errors. `Store` returns, and the file cannot be restored. Here the state has 17
bytes, the device room for 16. -/
theorem C116_full_fails :
    let cs := [Call.block Kind.PERSIST.bytes 0, .block [7] 0, .block Kind.COMPONENT.bytes 0,
      .block Kind.FIELD.bytes 0, .block [1, 2, 3, 4] 0]
    let o := Obj.mk (some [7]) (some [.simple true [1, 2, 3, 4]]) none
    bytes cs = o.store ∧ (store 16 true [] cs).raised = false ∧
    (store 16 true [] cs).file.length = 16 ∧ (o.restore (store 16 true [] cs).file).isNone := by
  decide

/-- **C116 fails** when `Store` raises: the breakpoint that was in the file before is lost, whatever
it was and whoever raises. -/
theorem C116_lost_fails (room : Nat) (old : Bytes) (d : Bytes) (k : Nat)
    (h : ¬ old <+: d) (ho : old ≠ []) :
    (store room true old [.block d k, .raise]).raised = true ∧
    ¬ old <+: (store room true old [.block d k, .raise]).file := by
  refine ⟨?_, fun hp => ?_⟩
  · unfold store
    have h : (Out.calls room ⟨[], []⟩ [.block d k, .raise]).2 = true := by
      simp only [Out.calls]; split <;> rfl
    simp [h]
  · have := (C116_prefix room old [.block d k, .raise]).1
    simp only [bytes, List.append_nil] at this
    exact h (hp.trans this)

/-- **C116 fails** for the entry points of `SMP_LeaveStoring` and `SMP_EnterStandby`: they are
executed when the file may still be empty, so that a `Restore` there raises. -/
theorem C116_standby_fails :
    let cs := [Call.block Kind.COMPOSITE.bytes 0, .block Kind.CONTAINER.bytes 0]
    bytes cs = (simulator [[]]).store ∧ (store 100 true [] cs).standby = some [] ∧
    ((simulator [[]]).restore []).isNone ∧ (store 100 true [] cs).file = bytes cs := by
  decide

/-! ### The hypotheses are met -/

/-- Three blocks, written in parts. -/
example : Quiet [.block [1, 2, 3] 2, .block [4] 0, .block [5, 6] 3] ∧
    Buffered 2 0 [.block [1, 2, 3] 2, .block [4] 0, .block [5, 6] 3] ∧
    store 6 true [9, 9, 9] [.block [1, 2, 3] 2, .block [4] 0, .block [5, 6] 3] =
      ⟨false, some [1, 2, 3, 4, 5], [1, 2, 3, 4, 5, 6]⟩ ∧
    (store 3 true [9, 9, 9] [.block [1, 2, 3] 2, .block [4] 0, .block [5, 6] 3]).raised = true := by
  refine ⟨by simp [Quiet], by simp [Buffered], by decide, by decide⟩

/-- A file that was cut off. -/
example : (model 1 2 3).same (model 7 8 9) ∧
    (model 1 2 3).store = (model 1 2 3).store.take 9 ++ (model 1 2 3).store.drop 9 ∧
    (model 1 2 3).store.drop 9 ≠ [] :=
  ⟨by simp [model, Obj.same, Fld.same, sameAll], by decide, by decide⟩

end Verif.Sim.Writer
