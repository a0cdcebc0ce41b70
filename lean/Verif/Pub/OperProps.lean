import Verif.Pub.Oper
import Verif.Pub.RequestProps
import Verif.Path.Props

/-! Properties C54 (for operations), C56 and the part of C53 on following type references. -/
namespace Verif.Pub
open Verif.Any (Kind Fl Val Any Out)
open Verif.Path (Str checkName Grammar)

/-! ### Names -/

theorem plain_of_grammar {s : Str} (h : Grammar s) : Plain s := by
  rcases h with ⟨c, w, rfl, _, hw⟩ | ⟨ds, rfl, _, hd⟩
  · refine ⟨by simp, ?_⟩
    intro x hx
    rcases hw x (by simpa using hx) with h | h | h
    · constructor <;> (rintro rfl; revert h; decide)
    · constructor <;> (rintro rfl; revert h; decide)
    · subst h; decide
  · refine ⟨by simp, ?_⟩
    intro x hx
    simp only [List.tail_cons, List.mem_append, List.mem_singleton] at hx
    rcases hx with h | rfl
    · have := hd x h
      constructor <;> (rintro rfl; revert this; decide)
    · decide

theorem checkName_ok {n : Option Str} {s : Str} (h : checkName n = .ok s) :
    n = some s ∧ Plain s := by
  cases n with
  | none => simp [checkName] at h
  | some m =>
    have : m = s := by
      unfold checkName at h
      split at h
      · cases h
      · rename_i heq
        cases heq
        split at h
        · cases h
        · split at h
          · split at h
            · cases h; rfl
            · cases h
          · split at h
            · split at h
              · cases h
              · split at h
                · split at h
                  · split at h
                    · cases h; rfl
                    · cases h
                  · cases h
                · cases h
            · cases h
    subst this
    exact ⟨rfl, plain_of_grammar ((Verif.Path.checkName_iff m).1 h)⟩

/-! ### Invariant of the publication -/

structure Oper.Good (R : Registry) (o : Oper) : Prop where
  nodup : (o.params.map Param.name).Nodup
  plain : ∀ p ∈ o.params, Plain p.name
  known : ∀ p ∈ o.params, getType R p.uuid ≠ none
  dirs : ∀ p ∈ o.params, p.dir ≠ .return
  ret : ∀ p, o.ret = some p → p.name ∉ o.params.map Param.name ∧ Plain p.name ∧
    getType R p.uuid ≠ none ∧ p.dir = .return

structure Pubn.Good (R : Registry) (P : Pubn) : Prop where
  nodup : (P.opers.map Oper.name).Nodup
  opers : ∀ o ∈ P.opers, o.Good R
  props : (P.props.map Prp.name).Nodup
  known : ∀ p ∈ P.props, getType R p.uuid ≠ none

theorem known_step {R : Registry} {u : Uuid} (op : Op) (h : getType R u ≠ none) :
    getType (step R op).1 u ≠ none := by
  cases ht : getType R u with
  | none => exact absurd ht h
  | some t =>
    obtain ⟨t', h', _⟩ := step_grows R op u t ht
    simp [h']

theorem Oper.Good.reg {R : Registry} {o : Oper} (h : o.Good R) (op : Op) :
    o.Good (step R op).1 :=
  ⟨h.nodup, h.plain, fun p hp => known_step op (h.known p hp), h.dirs,
    fun p hp => ⟨(h.ret p hp).1, (h.ret p hp).2.1, known_step op (h.ret p hp).2.2.1,
      (h.ret p hp).2.2.2⟩⟩

theorem Oper.publishParameter_name (R : Registry) (o : Oper) (n : Str) (u : Uuid) (d : Dir) :
    (o.publishParameter R n u d).1.name = o.name := by
  unfold Oper.publishParameter
  repeat' (first | rfl | split)

theorem Oper.Good.publish {R : Registry} {o : Oper} (h : o.Good R) (n : Str) (u : Uuid)
    (d : Dir) : (o.publishParameter R n u d).1.Good R := by
  unfold Oper.publishParameter
  split
  · exact h
  · rename_i t ht
    split
    · rename_i hd
      split
      · exact h
      · rename_i hret
        split
        · exact h
        · rename_i hdup
          split
          · exact h
          · rename_i n' hn
            obtain ⟨hnn, hpl⟩ := checkName_ok hn
            cases hnn
            refine ⟨h.nodup, h.plain, h.known, h.dirs, ?_⟩
            intro p hp
            cases hp
            refine ⟨?_, hpl, by simp [ht], hd⟩
            intro hm
            obtain ⟨q, hq, he⟩ := List.mem_map.1 hm
            exact hdup (List.any_eq_true.2 ⟨q, hq, by simpa using he⟩)
    · rename_i hd
      split
      · exact h
      · rename_i hret
        split
        · exact h
        · rename_i n' hn
          obtain ⟨hnn, hpl⟩ := checkName_ok hn
          cases hnn
          split
          · exact h
          · rename_i hdup
            have hnew : n ∉ o.params.map Param.name := by
              intro hm
              obtain ⟨q, hq, he⟩ := List.mem_map.1 hm
              exact hdup (List.any_eq_true.2 ⟨q, hq, by simpa using he⟩)
            refine ⟨?_, ?_, ?_, ?_, ?_⟩
            · simp only [List.map_append, List.map_cons, List.map_nil, List.nodup_append]
              refine ⟨h.nodup, by simp, ?_⟩
              intro a ha b hb
              simp only [List.mem_singleton] at hb
              subst hb
              rintro rfl
              exact hnew ha
            · intro p hp
              rcases List.mem_append.1 hp with hp | hp
              · exact h.plain p hp
              · simp only [List.mem_singleton] at hp; subst hp; exact hpl
            · intro p hp
              rcases List.mem_append.1 hp with hp | hp
              · exact h.known p hp
              · simp only [List.mem_singleton] at hp; subst hp; simp [ht]
            · intro p hp
              rcases List.mem_append.1 hp with hp | hp
              · exact h.dirs p hp
              · simp only [List.mem_singleton] at hp; subst hp; exact hd
            · intro p hp
              refine ⟨?_, (h.ret p hp).2⟩
              simp only [List.map_append, List.map_cons, List.map_nil, List.mem_append,
                List.mem_singleton, not_or]
              refine ⟨(h.ret p hp).1, ?_⟩
              intro heq
              apply hret
              simp only at hp
              rw [hp]
              simpa using heq

theorem good_pstep {s : Registry × Pubn} (h : s.2.Good s.1) (c : PCall) :
    (pstep s c).2.Good (pstep s c).1 := by
  cases c with
  | reg op =>
    exact ⟨h.nodup, fun o ho => (h.opers o ho).reg op, h.props,
      fun p hp => known_step op (h.known p hp)⟩
  | unpublish => exact ⟨by simp [pstep], by simp [pstep], by simp [pstep], by simp [pstep]⟩
  | parameter on n u d =>
    simp only [pstep, Pubn.publishParameter]
    refine ⟨?_, ?_, h.props, h.known⟩
    · simp only [List.map_map]
      have : s.2.opers.map (Oper.name ∘ fun o =>
          if o.name = on then (o.publishParameter s.1 n u d).1 else o) =
          s.2.opers.map Oper.name := by
        apply List.map_congr_left
        intro o _
        simp only [Function.comp]
        split
        · exact Oper.publishParameter_name ..
        · rfl
      rw [this]; exact h.nodup
    · intro o ho
      obtain ⟨o', ho', rfl⟩ := List.mem_map.1 ho
      split
      · exact (h.opers o' ho').publish n u d
      · exact h.opers o' ho'
  | operation n =>
    simp only [pstep, Pubn.publishOperation]
    split
    · refine ⟨?_, ?_, h.props, h.known⟩
      · simp only [List.map_map]
        have : s.2.opers.map (Oper.name ∘ fun o =>
            if (some o.name) = n then { o with params := [], ret := none } else o) =
            s.2.opers.map Oper.name := by
          apply List.map_congr_left
          intro o _
          simp only [Function.comp]
          split <;> rfl
        rw [this]; exact h.nodup
      · intro o ho
        obtain ⟨o', ho', rfl⟩ := List.mem_map.1 ho
        split
        · exact ⟨by simp, by simp, by simp, by simp, by simp⟩
        · exact h.opers o' ho'
    · rename_i hnone
      split
      · exact h
      · rename_i m hm
        obtain ⟨rfl, _⟩ := checkName_ok hm
        refine ⟨?_, ?_, h.props, h.known⟩
        · simp only [List.map_append, List.map_cons, List.map_nil, List.nodup_append]
          refine ⟨h.nodup, by simp, ?_⟩
          intro a ha b hb
          simp only [List.mem_singleton] at hb
          subst hb
          rintro rfl
          obtain ⟨o, ho, he⟩ := List.mem_map.1 ha
          have := List.find?_eq_none.1 hnone o ho
          simp [he] at this
        · intro o ho
          rcases List.mem_append.1 ho with ho | ho
          · exact h.opers o ho
          · simp only [List.mem_singleton] at ho
            subst ho
            exact ⟨by simp, by simp, by simp, by simp, by simp⟩
  | property n u a =>
    simp only [pstep, Pubn.publishProperty]
    split
    · exact h
    · rename_i t ht
      split
      · refine ⟨h.nodup, h.opers, ?_, ?_⟩
        · simp only [List.map_map]
          have : s.2.props.map (Prp.name ∘ fun p =>
              if (some p.name) = n then { p with uuid := u, access := a } else p) =
              s.2.props.map Prp.name := by
            apply List.map_congr_left
            intro o _
            simp only [Function.comp]
            split <;> rfl
          rw [this]; exact h.props
        · intro p hp
          obtain ⟨p', hp', rfl⟩ := List.mem_map.1 hp
          split
          · simp [ht]
          · exact h.known p' hp'
      · rename_i hnone
        split
        · exact h
        · rename_i m hm
          obtain ⟨rfl, _⟩ := checkName_ok hm
          refine ⟨h.nodup, h.opers, ?_, ?_⟩
          · simp only [List.map_append, List.map_cons, List.map_nil, List.nodup_append]
            refine ⟨h.props, by simp, ?_⟩
            intro a ha b hb
            simp only [List.mem_singleton] at hb
            subst hb
            rintro rfl
            obtain ⟨o, ho, he⟩ := List.mem_map.1 ha
            have := List.find?_eq_none.1 hnone o ho
            simp [he] at this
          · intro p hp
            rcases List.mem_append.1 hp with hp | hp
            · exact h.known p hp
            · simp only [List.mem_singleton] at hp; subst hp; simp [ht]

theorem good_prun (cs : List PCall) : ∀ {s : Registry × Pubn}, s.2.Good s.1 →
    (prun s cs).2.Good (prun s cs).1 := by
  induction cs with
  | nil => intro s h; exact h
  | cons c cs ih => intro s h; exact ih (good_pstep h c)

theorem good_start : (Pubn.mk [] []).Good initial := ⟨by simp, by simp, by simp, by simp⟩

/-! ### C56: the signature of an operation -/

/-- C56. `PublishParameter` declares the parameter, behind the others or as the return value, when
its type is known, its name is one of the grammar and is not used by another parameter nor by
the return value, and there is no return value yet if it is one; in all other cases an
exception is raised and the signature does not change. -/
theorem C56_signature (R : Registry) (o : Oper) (name : Str) (u : Uuid) (dir : Dir) :
    ((o.publishParameter R name u dir).2 = none ↔
      getType R u ≠ none ∧ Grammar name ∧ (∀ p ∈ o.params, p.name ≠ name) ∧
        (∀ p, o.ret = some p → dir ≠ .return ∧ p.name ≠ name)) ∧
    ((o.publishParameter R name u dir).2 = none →
      (o.publishParameter R name u dir).1 =
        (if dir = .return then { o with ret := some ⟨name, u, dir⟩ }
         else { o with params := o.params ++ [⟨name, u, dir⟩] })) ∧
    ((o.publishParameter R name u dir).2 ≠ none → (o.publishParameter R name u dir).1 = o) := by
  have hname := Verif.Path.C41_checkName (some name)
  unfold Oper.publishParameter
  cases ht : getType R u with
  | none => simp
  | some t =>
    simp only
    have hg : ∀ n, checkName (some name) = .ok n → n = name ∧ Grammar name := by
      intro n h
      have := (hname.1 n).1 h
      obtain ⟨h1, h2⟩ := this
      cases h1; exact ⟨rfl, h2⟩
    have hb : checkName (some name) = .invalidObjectName → ¬ Grammar name :=
      fun h => (hname.2.1 h) name rfl
    by_cases hd : dir = .return
    · rw [if_pos hd]
      cases hr : o.ret with
      | some p => simp [hd]
      | none =>
        simp only [Option.isSome_none, Bool.false_eq_true, if_false]
        by_cases hp : (o.params.any (fun p => p.name == name)) = true
        · rw [if_pos hp]
          simp only [List.any_eq_true, beq_iff_eq] at hp
          obtain ⟨p, h1, h2⟩ := hp
          simp only [reduceCtorEq, false_iff, false_implies, true_and, ne_eq, not_false_eq_true,
            true_implies, and_true]
          intro h
          exact h.2.1 p h1 h2
        · rw [if_neg hp]
          have hp' : ∀ p ∈ o.params, p.name ≠ name := by
            intro p h1 h2
            exact hp (List.any_eq_true.2 ⟨p, h1, by simp [h2]⟩)
          cases hc : checkName (some name) with
          | invalidObjectName =>
            simp [hb hc]
          | ok n =>
            obtain ⟨rfl, hgr⟩ := hg n hc
            simp [hgr, hd]
            exact hp'
    · rw [if_neg hd]
      by_cases hr : o.ret.any (fun p => p.name == name) = true
      · rw [if_pos hr]
        cases hret : o.ret with
        | none => rw [hret] at hr; simp at hr
        | some p =>
          rw [hret] at hr
          simp at hr
          simp [hr]
      · rw [if_neg hr]
        have hr' : ∀ p, o.ret = some p → dir ≠ .return ∧ p.name ≠ name := by
          intro p hp
          refine ⟨hd, fun h => hr ?_⟩
          simp [hp, h]
        cases hc : checkName (some name) with
        | invalidObjectName => simp [hb hc]
        | ok n =>
          obtain ⟨rfl, hgr⟩ := hg n hc
          simp only
          by_cases hp : (o.params.any (fun p => p.name == n)) = true
          · rw [if_pos hp]
            simp only [List.any_eq_true, beq_iff_eq] at hp
            obtain ⟨p, h1, h2⟩ := hp
            simp only [reduceCtorEq, false_iff, false_implies, true_and, ne_eq, not_false_eq_true,
              true_implies, and_true]
            intro h
            exact h.2.1 p h1 h2
          · rw [if_neg hp]
            have hp' : ∀ p ∈ o.params, p.name ≠ n := by
              intro p h1 h2
              exact hp (List.any_eq_true.2 ⟨p, h1, by simp [h2]⟩)
            simp only [ne_eq, not_true_eq_false, false_implies, and_true, true_implies, true_iff,
              reduceCtorEq, not_false_eq_true, true_and, if_neg hd]
            exact ⟨hgr, hp', fun p h => (hr' p h)⟩

/-! ### C54 for operations -/

theorem createRequest_some {R : Registry} {o : Oper} {r : Req} (hg : o.Good R)
    (h : o.createRequest R = some r) :
    r = build (o.params.map fun p => (p.name, p.uuid)) ∧
    (∀ p ∈ o.params, kindOf R p.uuid ≠ .None) ∧
    (∀ p, o.ret = some p → kindOf R p.uuid ≠ .None) := by
  unfold Oper.createRequest at h
  split at h
  · cases h
  · rename_i h1
    split at h
    · cases h
    · rename_i h2
      have h1' : ∀ p ∈ o.params, kindOf R p.uuid ≠ .None := by
        intro p hp hk
        exact h1 (List.any_eq_true.2 ⟨p, hp, by simp [hk]⟩)
      have hflat : ∀ ps : List Param, (∀ p ∈ ps, p ∈ o.params) →
          flattenAll (ps.map fun p => (p.name, expand R 1 p.uuid)) =
            some (ps.map fun p => (p.name, p.uuid)) := by
        intro ps
        induction ps with
        | nil => intro _; rfl
        | cons p ps ih =>
          intro hsub
          have hp := hsub p (List.mem_cons_self ..)
          have hk := h1' p hp
          have he : expand R 1 p.uuid = .simple p.uuid := by
            simp only [expand]
            cases ht : getType R p.uuid with
            | none => exact absurd ht (hg.known p hp)
            | some t =>
              have : t.kind ≠ .None := by simpa [kindOf, ht] using hk
              simp [this]
          simp only [List.map_cons, flattenAll, he, flatten,
            ih (fun q hq => hsub q (List.mem_cons_of_mem _ hq))]
          rfl
      rw [hflat o.params (fun _ h => h)] at h
      simp only [Option.map_some, Option.some.injEq] at h
      refine ⟨h.symm, h1', ?_⟩
      intro p hp hk
      apply h2
      rw [hp]
      simpa using hk

/-- C54 for the requests an operation creates, after any publication and whatever is called
afterwards on the request and the registry: the parameters of the request are those of the
operation, in order, each found by its name and by no other; the names are pairwise different,
so the indexes are too. -/
theorem C54 (pcs : List PCall) (o : Oper) (ho : o ∈ (prun (initial, ⟨[], []⟩) pcs).2.opers)
    (r : Req) (hr : o.createRequest (prun (initial, ⟨[], []⟩) pcs).1 = some r)
    (cs : List RCall) :
    let q := (rrun ((prun (initial, ⟨[], []⟩) pcs).1, r) cs).2
    q.values.length = o.params.length ∧
    (∀ (i : Nat) (p : Param), o.params[i]? = some p → q.index (some p.name) = i) ∧
    (∀ n, (∀ p ∈ o.params, p.name ≠ n) → q.index (some n) = -1) ∧
    (∀ n m, q.index (some n) = q.index (some m) → q.index (some n) ≠ -1 → n = m) := by
  have hg := (good_prun pcs good_start).opers o ho
  obtain ⟨rfl, _, _⟩ := createRequest_some hg hr
  intro q
  have hnd : ((o.params.map fun p => (p.name, p.uuid)).map Prod.fst).Nodup := by
    simpa [Function.comp_def] using hg.nodup
  obtain ⟨h1, h2, _, h4⟩ := C54_index (prun (initial, ⟨[], []⟩) pcs).1 _ hnd cs
  have hof : q.Of (o.params.map fun p => (p.name, p.uuid)) :=
    of_rrun cs (s := ((prun (initial, ⟨[], []⟩) pcs).1, _)) (of_build hnd)
  refine ⟨?_, ?_, ?_, h4⟩
  · have := congrArg List.length hof.types; simpa using this
  · intro i p hp
    exact h1 i p.name (by simp [hp])
  · intro n hn
    apply h2 n
    simp only [List.map_map, List.mem_map, not_exists, not_and]
    intro p hp he
    exact hn p hp he

/-! ### C56 -/

theorem checkParams_iff (R : Registry) (r : IReq) (ps : List Param) :
    checkParams R r ps = .called ↔
      ∀ p ∈ ps, p.dir ≠ .out → ∃ v, r.value (r.index (some p.name)) = some v ∧
        v.type = kindOf R p.uuid := by
  induction ps with
  | nil => simp [checkParams]
  | cons p ps ih =>
    simp only [checkParams, List.forall_mem_cons]
    split
    · rename_i h; simp [h, ih]
    · rename_i h
      split
      · rename_i hv; simp [h, hv]
      · rename_i v hv
        split
        · rename_i hk; simp [h, hv, hk]
        · rename_i hk
          rw [ih]
          simp only [ne_eq, Decidable.not_not] at hk
          simp [h, hv, hk]

/-- C56. `Invoke` of an operation calls the component if and only if there is a request, it is
for the operation's name, the component can be invoked, the request has as many parameters as
the operation, and each parameter that is not an output has a value of the declared kind; in
every other case it raises an exception and does not call the component. -/
theorem C56_invoke (R : Registry) (o : Oper) (dynamic : Bool) (request : Option IReq)
    (hlen : o.params.length < 2 ^ 31)
    (hcount : ∀ r, request = some r → -2 ^ 31 ≤ r.count ∧ r.count < 2 ^ 31) :
    o.invoke R dynamic request = .called ↔
      ∃ r, request = some r ∧ r.opName = some o.name ∧ dynamic = true ∧
        r.count = o.params.length ∧
        ∀ p ∈ o.params, p.dir ≠ .out → ∃ v, r.value (r.index (some p.name)) = some v ∧
          v.type = kindOf R p.uuid := by
  cases request with
  | none => simp [Oper.invoke]
  | some r =>
    obtain ⟨hc1, hc2⟩ := hcount r rfl
    have hsz : toSize r.count = o.params.length ↔ r.count = o.params.length := by
      unfold toSize
      omega
    simp only [Oper.invoke, Option.some.injEq, exists_eq_left']
    split
    · rename_i h; simp [h]
    · rename_i h
      split
      · rename_i hd; simp at hd; simp [hd]
      · rename_i hd
        split
        · rename_i hs; simp [← hsz, hs]
        · rename_i hs
          rw [checkParams_iff]
          simp only [ne_eq, Decidable.not_not] at h hs
          simp only [Bool.not_eq_true, Bool.not_eq_false'] at hd
          simp [h, hd, hsz.1 hs]

/-- C56, requests of the operation. A request the operation created, after any calls on it,
reaches the component exactly when every parameter that is not an output has been given a value
(and the component can be invoked at all); a request of another operation never does. -/
theorem C56_request (pcs : List PCall) (o : Oper)
    (ho : o ∈ (prun (initial, ⟨[], []⟩) pcs).2.opers) (hlen : o.params.length < 2 ^ 31)
    (hpc : ∀ op, PCall.reg op ∈ pcs → op.Ok)
    (r : Req) (hr : o.createRequest (prun (initial, ⟨[], []⟩) pcs).1 = some r)
    (cs : List RCall) (hc : ∀ c ∈ cs, c.Ok) (dynamic : Bool) :
    let s := rrun ((prun (initial, ⟨[], []⟩) pcs).1, r) cs
    (o.invoke s.1 dynamic (some (s.2.iface o)) = .called ↔
      dynamic = true ∧ ∀ (i : Nat) (p : Param), o.params[i]? = some p → p.dir ≠ .out →
        s.2.get i ≠ some noValue) ∧
    ∀ o' : Oper, o'.name ≠ o.name →
      o'.invoke s.1 dynamic (some (s.2.iface o)) = .invalidOperationName := by
  have hg := (good_prun pcs good_start).opers o ho
  obtain ⟨hbuild, hkind, _⟩ := createRequest_some hg hr
  -- the registry of the publication is the one of its calls on the registry
  have hregs : ∀ (pcs : List PCall) (s : Registry × Pubn),
      ∃ ops, (prun s pcs).1 = run s.1 ops ∧ ∀ op ∈ ops, PCall.reg op ∈ pcs := by
    intro pcs
    induction pcs with
    | nil => intro s; exact ⟨[], rfl, by simp⟩
    | cons c pcs ih =>
      intro s
      obtain ⟨ops, h1, h2⟩ := ih (pstep s c)
      cases c with
      | reg op =>
        refine ⟨op :: ops, h1, ?_⟩
        intro x hx
        rcases List.mem_cons.1 hx with rfl | hx
        · exact List.mem_cons_self ..
        · exact List.mem_cons_of_mem _ (h2 x hx)
      | _ => exact ⟨ops, h1, fun op hop => List.mem_cons_of_mem _ (h2 op hop)⟩
  obtain ⟨ops, hops, hmem⟩ := hregs pcs (initial, ⟨[], []⟩)
  simp only at hops
  have hok : ∀ op ∈ ops, op.Ok := fun op h => hpc op (hmem op h)
  obtain ⟨hl, hidx, _, _⟩ := C54 pcs o ho r hr cs
  simp only [hops] at hl hidx hg hkind hr ⊢
  let s := rrun (run initial ops, r) cs
  show (o.invoke s.1 dynamic (some (s.2.iface o)) = .called ↔
      dynamic = true ∧ ∀ (i : Nat) (p : Param), o.params[i]? = some p → p.dir ≠ .out →
        s.2.get i ≠ some noValue) ∧
    ∀ o' : Oper, o'.name ≠ o.name →
      o'.invoke s.1 dynamic (some (s.2.iface o)) = .invalidOperationName
  have hnd : ((o.params.map fun p => (p.name, p.uuid)).map Prod.fst).Nodup := by
    simpa [Function.comp_def] using hg.nodup
  -- types stay registered and keep their kind
  have hgrow : ∀ (cs : List RCall) (s0 : Registry × Req) u t, getType s0.1 u = some t →
      ∃ t', getType (rrun s0 cs).1 u = some t' ∧ t'.kind = t.kind := by
    intro cs
    induction cs with
    | nil => intro s0 u t h; exact ⟨t, h, rfl⟩
    | cons c cs ih =>
      intro s0 u t h
      have : ∃ t', getType (rstep s0 c).1 u = some t' ∧ t'.kind = t.kind := by
        cases c with
        | reg op =>
          obtain ⟨t', h', hgr, _⟩ := step_grows s0.1 op u t h
          exact ⟨t', h', hgr.kind⟩
        | set i v => exact ⟨t, h, rfl⟩
        | setReturn u v => exact ⟨t, h, rfl⟩
      obtain ⟨t', h', hk⟩ := this
      obtain ⟨t'', h'', hk'⟩ := ih (rstep s0 c) u t' h'
      exact ⟨t'', h'', hk'.trans hk⟩
  constructor
  · rw [C56_invoke s.1 o dynamic _ hlen (by
      intro q hq
      cases hq
      simp only [Req.iface]
      have : s.2.values.length = o.params.length := hl
      omega)]
    simp only [Option.some.injEq, exists_eq_left', Req.iface, true_and]
    have hcount : (s.2.values.length : Int) = o.params.length := by
      have : s.2.values.length = o.params.length := hl
      omega
    simp only [hcount, true_and]
    refine and_congr_right fun _ => ?_
    -- the value of the i-th parameter
    have key : ∀ (i : Nat) (p : Param), o.params[i]? = some p → ∃ v, s.2.get i = some v ∧
        (v = noValue ∨ v.type = kindOf s.1 p.uuid) ∧ kindOf s.1 p.uuid ≠ .None := by
      intro i p hp
      obtain ⟨hi, hpi⟩ := List.getElem?_eq_some_iff.1 hp
      have hpm : p ∈ o.params := hpi ▸ List.getElem_mem hi
      cases ht : getType (run initial ops) p.uuid with
      | none => exact absurd ht (hg.known p hpm)
      | some t =>
        obtain ⟨t', ht', hk'⟩ := hgrow cs (run initial ops, r) p.uuid t ht
        have hks : kindOf s.1 p.uuid = t'.kind := by simp [s, kindOf, ht']
        have hgi : ∃ v, s.2.get i = some v := by
          rw [get_ofNat]
          have : i < s.2.values.length := by rw [show s.2.values.length = _ from hl]; exact hi
          exact ⟨_, by rw [List.getElem?_eq_getElem this]; rfl⟩
        obtain ⟨v, hv⟩ := hgi
        refine ⟨v, hv, ?_, ?_⟩
        · subst hbuild
          have := C55_partial ops (o.params.map fun p => (p.name, p.uuid)) hnd cs hok hc i p.name
            p.uuid t' v (by simp [hp]) ht' hv
          rcases this with h | ⟨h, _⟩
          · exact Or.inl h
          · exact Or.inr (h.trans hks.symm)
        · rw [hks, hk']
          have := hkind p hpm
          simpa [kindOf, ht] using this
    constructor
    · intro h i p hp hd hnone
      obtain ⟨hi, hpi⟩ := List.getElem?_eq_some_iff.1 hp
      have hpm : p ∈ o.params := hpi ▸ List.getElem_mem hi
      obtain ⟨v, hv, hk⟩ := h p hpm hd
      rw [show s.2.index (some p.name) = (i : Int) from hidx i p hp] at hv
      rw [hnone] at hv
      cases hv
      obtain ⟨_, _, _, hne⟩ := key i p hp
      exact hne hk.symm
    · intro h p hpm hd
      obtain ⟨i, hp⟩ := List.getElem?_of_mem hpm
      obtain ⟨v, hv, hor, _⟩ := key i p hp
      refine ⟨v, ?_, ?_⟩
      · rw [show s.2.index (some p.name) = (i : Int) from hidx i p hp]; exact hv
      · rcases hor with rfl | hk
        · exact absurd hv (h i p hp hd)
        · exact hk
  · intro o' hne
    simp only [Oper.invoke, Req.iface]
    simp [Ne.symm hne]

/-- C56, creation of requests. A request created for a name carries that name; it is for the
operation of that name if there is one, and otherwise for the property the name reads or
writes, if its access allows it. -/
theorem C56_create (R : Registry) (P : Pubn) (n : Str) (q : AnyReq)
    (h : P.createRequest R (some n) = some q) :
    q.opName = n ∧
    (∀ o r, q = .oper o r → o ∈ P.opers ∧ o.name = n ∧ o.createRequest R = some r) ∧
    (∀ g, q = .getter g → g.prop ∈ P.props ∧ n = "get_".toList ++ g.prop.name ∧
      g.prop.access ≠ .writeOnly ∧ ∀ o ∈ P.opers, o.name ≠ n) ∧
    (∀ g, q = .setter g → g.prop ∈ P.props ∧ n = "set_".toList ++ g.prop.name ∧
      g.prop.access ≠ .readOnly ∧ ∀ o ∈ P.opers, o.name ≠ n) := by
  have strip : ∀ pre : Str, pre.length = 4 → pre.isPrefixOf n = true →
      n = pre ++ n.drop 4 := by
    intro pre hl hp
    obtain ⟨t, rfl⟩ := List.isPrefixOf_iff_prefix.1 hp
    rw [← hl, List.drop_left]
  simp only [Pubn.createRequest] at h
  split at h
  · rename_i o ho
    obtain ⟨r, hr, rfl⟩ := Option.map_eq_some_iff.1 h
    have hm := List.mem_of_find?_eq_some ho
    have hn : o.name = n := by simpa using List.find?_some ho
    refine ⟨hn, ?_, ?_, ?_⟩
    · intro o' r' e; cases e; exact ⟨hm, hn, hr⟩
    · intro g e; cases e
    · intro g e; cases e
  · rename_i hno
    have hno' : ∀ o ∈ P.opers, o.name ≠ n := by
      intro o ho he
      exact absurd (List.find?_eq_none.1 hno o ho) (by simp [he])
    split at h
    · rename_i hp
      have hn := strip _ (by decide) hp
      unfold Pubn.createGet at h
      split at h
      · cases h
      · rename_i p hp'
        split at h
        · cases h
        · rename_i hacc
          cases h
          have hpn : p.name = n.drop 4 := by simpa using List.find?_some hp'
          refine ⟨by rw [hn, ← hpn]; rfl, ?_, ?_, ?_⟩
          · intro o r e; cases e
          · intro g e; cases e
            exact ⟨List.mem_of_find?_eq_some hp', by rw [hn, ← hpn], hacc, hno'⟩
          · intro g e; cases e
    · split at h
      · rename_i hp
        have hn := strip _ (by decide) hp
        unfold Pubn.createSet at h
        split at h
        · cases h
        · rename_i p hp'
          split at h
          · cases h
          · rename_i hacc
            cases h
            have hpn : p.name = n.drop 4 := by simpa using List.find?_some hp'
            refine ⟨by rw [hn, ← hpn]; rfl, ?_, ?_, ?_⟩
            · intro o r e; cases e
            · intro g e; cases e
            · intro g e; cases e
              exact ⟨List.mem_of_find?_eq_some hp', by rw [hn, ← hpn], hacc, hno'⟩
      · cases h

/-- C56, creation succeeds: an operation all of whose parameters and return value have a
primitive kind can be requested by its name; a property can be requested by `get_` or `set_`
and its name when its access allows it and no operation has that name. -/
theorem C56_creatable (pcs : List PCall) :
    let s := prun (initial, ⟨[], []⟩) pcs
    (∀ o ∈ s.2.opers, (∀ p ∈ o.params, kindOf s.1 p.uuid ≠ .None) →
      (∀ p, o.ret = some p → kindOf s.1 p.uuid ≠ .None) →
      ∃ r, s.2.createRequest s.1 (some o.name) = some (.oper o r)) ∧
    (∀ p ∈ s.2.props, p.access ≠ .writeOnly → (∀ o ∈ s.2.opers, o.name ≠ "get_".toList ++ p.name) →
      s.2.createRequest s.1 (some ("get_".toList ++ p.name)) = some (.getter ⟨p, noValue⟩)) ∧
    (∀ p ∈ s.2.props, p.access ≠ .readOnly → (∀ o ∈ s.2.opers, o.name ≠ "set_".toList ++ p.name) →
      s.2.createRequest s.1 (some ("set_".toList ++ p.name)) = some (.setter ⟨p, noValue⟩)) := by
  intro s
  have hg : s.2.Good s.1 := good_prun pcs good_start
  have uniqO : ∀ (l : List Oper), (l.map Oper.name).Nodup → ∀ o ∈ l,
      l.find? (fun o' => o'.name == o.name) = some o := by
    intro l
    induction l with
    | nil => intro _ o ho; cases ho
    | cons a l ih =>
      intro hn o ho
      simp only [List.map_cons, List.nodup_cons] at hn
      rcases List.mem_cons.1 ho with rfl | ho
      · simp
      · have : a.name ≠ o.name := fun e => hn.1 (e ▸ List.mem_map_of_mem ho)
        rw [List.find?_cons, show (a.name == o.name) = false by simpa]
        exact ih hn.2 o ho
  have uniqP : ∀ (l : List Prp), (l.map Prp.name).Nodup → ∀ o ∈ l,
      l.find? (fun o' => o'.name == o.name) = some o := by
    intro l
    induction l with
    | nil => intro _ o ho; cases ho
    | cons a l ih =>
      intro hn o ho
      simp only [List.map_cons, List.nodup_cons] at hn
      rcases List.mem_cons.1 ho with rfl | ho
      · simp
      · have : a.name ≠ o.name := fun e => hn.1 (e ▸ List.mem_map_of_mem ho)
        rw [List.find?_cons, show (a.name == o.name) = false by simpa]
        exact ih hn.2 o ho
  refine ⟨?_, ?_, ?_⟩
  · intro o ho h1 h2
    have hgo := hg.opers o ho
    simp only [Pubn.createRequest, uniqO _ hg.nodup o ho]
    unfold Oper.createRequest
    rw [if_neg (by
      intro h
      obtain ⟨p, hp, he⟩ := List.any_eq_true.1 h
      exact h1 p hp (by simpa using he))]
    rw [if_neg (by
      intro h
      cases hr : o.ret with
      | none => rw [hr] at h; simp at h
      | some p => rw [hr] at h; exact h2 p hr (by simpa using h))]
    have : ∀ ps : List Param, (∀ p ∈ ps, p ∈ o.params) →
        ∃ L, flattenAll (ps.map fun p => (p.name, expand s.1 1 p.uuid)) = some L := by
      intro ps
      induction ps with
      | nil => intro _; exact ⟨[], rfl⟩
      | cons p ps ih =>
        intro hsub
        have hp := hsub p (List.mem_cons_self ..)
        have hk := h1 p hp
        have he : expand s.1 1 p.uuid = .simple p.uuid := by
          simp only [expand]
          cases ht : getType s.1 p.uuid with
          | none => exact absurd ht (hgo.known p hp)
          | some t =>
            have : t.kind ≠ .None := by simpa [kindOf, ht] using hk
            simp [this]
        obtain ⟨L, hL⟩ := ih (fun q hq => hsub q (List.mem_cons_of_mem _ hq))
        exact ⟨(p.name, p.uuid) :: L, by simp [flattenAll, he, flatten, hL]⟩
    obtain ⟨L, hL⟩ := this o.params (fun _ h => h)
    exact ⟨build L, by rw [hL]; rfl⟩
  · intro p hp hacc hno
    have hnone : s.2.opers.find? (fun o => o.name == "get_".toList ++ p.name) = none := by
      rw [List.find?_eq_none]; intro o ho; simpa using hno o ho
    simp only [Pubn.createRequest, hnone]
    rw [if_pos (by rw [List.isPrefixOf_iff_prefix]; exact List.prefix_append _ _)]
    rw [show ("get_".toList ++ p.name).drop 4 = p.name from List.drop_left' (by decide)]
    simp only [Pubn.createGet, uniqP _ hg.props p hp]
    rw [if_neg hacc]
  · intro p hp hacc hno
    have hnone : s.2.opers.find? (fun o => o.name == "set_".toList ++ p.name) = none := by
      rw [List.find?_eq_none]; intro o ho; simpa using hno o ho
    simp only [Pubn.createRequest, hnone]
    rw [if_neg (by
      rw [List.isPrefixOf_iff_prefix]
      intro h
      obtain ⟨t, ht⟩ := h
      have := congrArg (fun l : Str => l[0]?) ht
      simp at this)]
    rw [if_pos (by rw [List.isPrefixOf_iff_prefix]; exact List.prefix_append _ _)]
    rw [show ("set_".toList ++ p.name).drop 4 = p.name from List.drop_left' (by decide)]
    simp only [Pubn.createSet, uniqP _ hg.props p hp]
    rw [if_neg hacc]

theorem runGetter_ret {R : Registry} {t : TypeDef} (vs : List Any) : ∀ (g : Getter),
    getType R g.prop.uuid = some t →
    (g.ret = noValue ∨ isValid t g.ret = .ok true) →
    ((runGetter R g vs).1.ret = noValue ∨ isValid t (runGetter R g vs).1.ret = .ok true) := by
  induction vs with
  | nil => intro g _ h; exact h
  | cons v vs ih =>
    intro g ht h
    simp only [runGetter]
    have hs : (g.setReturn R v).1.prop = g.prop ∧
        ((g.setReturn R v).1.ret = noValue ∨ isValid t (g.setReturn R v).1.ret = .ok true) := by
      simp only [Getter.setReturn, validFor, ht]
      split
      · rename_i hv; exact ⟨rfl, Or.inr hv⟩
      · exact ⟨rfl, h⟩
    split
    · rename_i heq; rw [heq] at hs; exact hs.2
    · rename_i heq
      rw [heq] at hs
      exact ih _ (by rw [hs.1]; exact ht) hs.2

/-- C56, reading a property. The component is called exactly when it can be invoked and the
property is not write-only; what is returned is what the component set last, has the kind of
the property's type, or is no value at all. -/
theorem C56_getValue (R : Registry) (p : Prp) (dynamic : Bool) (b : Behaviour) (t : TypeDef)
    (ht : getType R p.uuid = some t) :
    (p.getValue R dynamic b = .invalidAccessKind ↔ dynamic = false ∨ p.access = .writeOnly) ∧
    ∀ v, p.getValue R dynamic b = .value v →
      b.raises = false ∧ v = b.sets.getLast?.getD noValue ∧
      (v = noValue ∨ isValid t v = .ok true ∧ v.type = t.kind) := by
  have last : ∀ (vs : List Any) (g : Getter), (runGetter R g vs).2 = false →
      (runGetter R g vs).1.ret = vs.getLast?.getD g.ret := by
    intro vs
    induction vs with
    | nil => intro g _; rfl
    | cons v vs ih =>
      intro g hg
      simp only [runGetter] at hg ⊢
      split at hg
      · simp at hg
      · rename_i g' heq
        rw [ih g' hg]
        have : g'.ret = v := by
          unfold Getter.setReturn at heq
          split at heq
          · cases heq; rfl
          · cases heq
        cases vs with
        | nil => simpa using this
        | cons w ws =>
          rw [List.getLast?_cons_cons, List.getLast?_eq_some_getLast (by simp)]; rfl
  constructor
  · unfold Prp.getValue
    split
    · rename_i h
      simp only [Bool.or_eq_true, Bool.not_eq_true', beq_iff_eq] at h
      simp [h]
    · rename_i h
      simp only [Bool.or_eq_true, Bool.not_eq_true', beq_iff_eq, not_or] at h
      simp only [h.1, h.2]
      split
      · simp
      · split <;> simp
  · intro v hv
    unfold Prp.getValue at hv
    split at hv
    · cases hv
    · split at hv
      · cases hv
      · rename_i g heq
        split at hv
        · cases hv
        · rename_i hb
          cases hv
          have h1 := last b.sets ⟨p, noValue⟩ (by rw [heq])
          have h2 := runGetter_ret (R := R) (t := t) b.sets ⟨p, noValue⟩ ht (Or.inl rfl)
          rw [heq] at h1 h2
          refine ⟨by simpa using hb, h1, ?_⟩
          rcases h2 with h2 | h2
          · exact Or.inl h2
          · exact Or.inr ⟨h2, kind_of_valid h2⟩

/-- C56, reading a property. When the component can be invoked, the property is not write-only, every
value that the component sets is valid for its type and it raises nothing, reading succeeds. -/
theorem C56_getValue_ok (R : Registry) (p : Prp) (b : Behaviour) (t : TypeDef)
    (ht : getType R p.uuid = some t) (hw : p.access ≠ .writeOnly) (hr : b.raises = false)
    (hv : ∀ v ∈ b.sets, isValid t v = .ok true) :
    p.getValue R true b = .value (b.sets.getLast?.getD noValue) := by
  have run : ∀ (vs : List Any) (g : Getter), g.prop = p → (∀ v ∈ vs, isValid t v = .ok true) →
      (runGetter R g vs).2 = false := by
    intro vs
    induction vs with
    | nil => intro g _ _; rfl
    | cons v vs ih =>
      intro g hg h
      have e : g.setReturn R v = ({ g with ret := v }, false) := by
        simp only [Getter.setReturn, validFor, hg, ht, h v List.mem_cons_self]
      simp only [runGetter, e]
      exact ih _ hg fun w hm => h w (List.mem_cons_of_mem _ hm)
  have h1 := run b.sets ⟨p, noValue⟩ rfl hv
  have hex : ∃ v, p.getValue R true b = .value v := by
    unfold Prp.getValue
    have : ¬ ((!true || p.access == .writeOnly) = true) := by
      simpa using hw
    rw [if_neg this]
    split
    · rename_i heq; rw [heq] at h1; cases h1
    · rw [hr]; exact ⟨_, rfl⟩
  obtain ⟨v, hv'⟩ := hex
  rw [hv', ((C56_getValue R p true b t ht).2 v hv').2.1]

/-- C56, writing a property. The component is called, with the value in the request, exactly
when it can be invoked, the property is not read-only and the value is valid for its type. -/
theorem C56_setValue (R : Registry) (p : Prp) (dynamic : Bool) (v w : Any) (t : TypeDef)
    (ht : getType R p.uuid = some t) :
    (p.setValue R dynamic v = .called w ↔
      w = v ∧ dynamic = true ∧ p.access ≠ .readOnly ∧ isValid t v = .ok true) ∧
    (p.setValue R dynamic v = .invalidAccessKind ↔ dynamic = false ∨ p.access = .readOnly) := by
  unfold Prp.setValue
  split
  · rename_i h
    simp only [Bool.or_eq_true, Bool.not_eq_true', beq_iff_eq] at h
    refine ⟨⟨by simp, ?_⟩, by simp [h]⟩
    rintro ⟨_, h1, h2, _⟩
    rcases h with h | h
    · rw [h1] at h; cases h
    · exact absurd h h2
  · rename_i h
    simp only [Bool.or_eq_true, Bool.not_eq_true', beq_iff_eq, not_or, Bool.not_eq_false] at h
    simp only [Setter.set, validFor, ht]
    split
    · rename_i heq
      split at heq
      · rename_i hh; exact absurd rfl hh
      · split at heq
        · cases heq
        · rename_i hv
          refine ⟨⟨by simp, ?_⟩, by simp [h]⟩
          rintro ⟨_, _, _, h4⟩
          exact absurd h4 hv
    · rename_i g heq
      split at heq
      · cases heq
      · split at heq
        · rename_i hv
          cases heq
          simp [h, hv, eq_comm]
        · cases heq

/-! ### Following type references (C53) -/

mutual
/-- All the types are registered and the references were followed to the end. -/
def Shape.Closed : Shape → Prop
  | .simple _ | .unsupported => True
  | .array _ s => s.Closed
  | .struct fs => ClosedL fs
  | .missing | .deep => False
def ClosedL : List (Str × Shape) → Prop
  | [] => True
  | (_, s) :: fs => s.Closed ∧ ClosedL fs
end

theorem closedL_iff (fs : List (Str × Shape)) : ClosedL fs ↔ ∀ p ∈ fs, p.2.Closed := by
  induction fs with
  | nil => simp [ClosedL]
  | cons p fs ih => simp [ClosedL, ih]

/-- The fields of every structure and class have types registered before it. -/
def FieldsEarlier (R : Registry) : Prop :=
  ∀ pre e post, R = pre ++ e :: post → ∀ f ∈ e.type.fields, ∃ d ∈ pre, d.uuid = f.uuid

/-- C53, following the references, partial: if every field names a type registered before its
structure (which the code does not check), the references of every registered type can be
followed to the end, within as many steps as there are types. -/
theorem C53_expand_partial (ops : List Op) (hf : FieldsEarlier (run initial ops)) (e : Entry)
    (he : e ∈ run initial ops) :
    (expand (run initial ops) (run initial ops).length e.uuid).Closed := by
  have hnd := (C53_unique ops).1
  have hrefs := C53_refs_partial ops
  generalize run initial ops = R at *
  suffices H : ∀ (k : Nat) pre post, R = pre ++ e :: post → pre.length ≤ k →
      ∀ fuel, k < fuel → (expand R fuel e.uuid).Closed by
    obtain ⟨pre, post, hR⟩ := List.append_of_mem he
    exact H pre.length pre post hR (Nat.le_refl _) R.length (by rw [hR]; simp)
  intro k
  induction k generalizing e with
  | zero =>
    intro pre post hR hl fuel hfuel
    have hpre : pre = [] := List.length_eq_zero_iff.1 (by omega)
    subst hpre
    obtain ⟨fuel, rfl⟩ : ∃ f, fuel = f + 1 := ⟨fuel - 1, by omega⟩
    simp only [expand, getType_of_mem hnd he]
    split
    · trivial
    · split
      · rename_i item s c b ht
        obtain ⟨_, _, d, hd, _⟩ := (hrefs _ _ _ hR).1 item s c b ht
        simp at hd
      · rename_i fs ht
        simp only [Shape.Closed, closedL_iff]
        intro p hp
        obtain ⟨f, hfm, rfl⟩ := List.mem_map.1 hp
        obtain ⟨d, hd, _⟩ := hf _ _ _ hR f (by rw [ht]; exact hfm)
        simp at hd
      · rename_i base fs ht
        simp only [Shape.Closed, closedL_iff]
        intro p hp
        obtain ⟨f, hfm, rfl⟩ := List.mem_map.1 hp
        obtain ⟨d, hd, _⟩ := hf _ _ _ hR f (by rw [ht]; exact hfm)
        simp at hd
      · trivial
  | succ k ih =>
    intro pre post hR hl fuel hfuel
    have next : ∀ u, (∃ d ∈ pre, d.uuid = u) → ∀ fuel', k < fuel' →
        (expand R fuel' u).Closed := by
      rintro u ⟨d, hd, rfl⟩ fuel' hfuel'
      obtain ⟨p1, p2, hp⟩ := List.append_of_mem hd
      refine ih d (by rw [hR, hp]; simp) p1 (p2 ++ e :: post) (by rw [hR, hp]; simp) ?_
        fuel' hfuel'
      have : pre.length = p1.length + (p2.length + 1) := by rw [hp]; simp
      omega
    obtain ⟨fuel, rfl⟩ : ∃ f, fuel = f + 1 := ⟨fuel - 1, by omega⟩
    simp only [expand, getType_of_mem hnd he]
    split
    · trivial
    · split
      · rename_i item s c b ht
        obtain ⟨_, _, hd⟩ := (hrefs _ _ _ hR).1 item s c b ht
        exact next item hd fuel (by omega)
      · rename_i fs ht
        simp only [Shape.Closed, closedL_iff]
        intro p hp
        obtain ⟨f, hfm, rfl⟩ := List.mem_map.1 hp
        exact next f.uuid (hf _ _ _ hR f (by rw [ht]; exact hfm)) fuel (by omega)
      · rename_i base fs ht
        simp only [Shape.Closed, closedL_iff]
        intro p hp
        obtain ⟨f, hfm, rfl⟩ := List.mem_map.1 hp
        exact next f.uuid (hf _ _ _ hR f (by rw [ht]; exact hfm)) fuel (by omega)
      · trivial

/-- C53, a structure with a field of its own type is accepted, and its references can then not
be followed to the end, however many steps are made. -/
theorem C53_expand_fails :
    ∃ ops : List Op, ∃ t, getType (run initial ops) 100 = some t ∧
      ∀ fuel, ¬ (expand (run initial ops) fuel 100).Closed := by
  refine ⟨[.addStructure 100 (some "S".toList), .addField 100 ⟨"b".toList, 100⟩], _, rfl, ?_⟩
  intro fuel
  induction fuel with
  | zero => simp [expand, Shape.Closed]
  | succ n ih =>
    have : expand (run initial [.addStructure 100 (some "S".toList),
        .addField 100 ⟨"b".toList, 100⟩]) (n + 1) 100 =
        .struct [("b".toList, expand (run initial [.addStructure 100 (some "S".toList),
        .addField 100 ⟨"b".toList, 100⟩]) n 100)] := rfl
    rw [this]
    simp only [Shape.Closed, ClosedL, and_true]
    exact ih

/-! ### The hypotheses are met -/

/-- A component with an operation `f(n : Small, out m) : Float64` and a property `x`. -/
def demoPub : List PCall :=
  [.reg (.addInteger 100 (some "Small".toList) 0 10 .Int32),
   .operation (some "f".toList),
   .parameter "f".toList "n".toList 100 .in,
   .parameter "f".toList "m".toList (primUuid .Bool) .out,
   .parameter "f".toList "n".toList 100 .inOut,
   .parameter "f".toList "r".toList (primUuid .Float64) .return,
   .property (some "x".toList) 100 .readOnly]

def demoS : Registry × Pubn := prun (initial, ⟨[], []⟩) demoPub
def demoOper : Oper := ⟨"f".toList, [⟨"n".toList, 100, .in⟩, ⟨"m".toList, primUuid .Bool, .out⟩],
  some ⟨"r".toList, primUuid .Float64, .return⟩⟩

example : demoS.2.opers = [demoOper] := rfl
example : (demoOper.publishParameter demoS.1 "zz".toList (primUuid .Int32) .in).2 = none ∧
    (demoOper.publishParameter demoS.1 "0".toList (primUuid .Int32) .in).2 =
      some .invalidObjectName := by decide
example : ∃ r, demoOper.createRequest demoS.1 = some r ∧
    demoOper.invoke demoS.1 true (some (r.iface demoOper)) = .invalidParameterType ∧
    demoOper.invoke demoS.1 true
      (some (((r.set demoS.1 0 ⟨.Int32, .int 3⟩).1).iface demoOper)) = .called ∧
    demoOper.invoke demoS.1 false
      (some (((r.set demoS.1 0 ⟨.Int32, .int 3⟩).1).iface demoOper)) = .invalidOperationName :=
  ⟨_, rfl, by decide, by decide, by decide⟩
example : ∃ g, demoS.2.createRequest demoS.1 (some "get_x".toList) = some (.getter g) := ⟨_, rfl⟩
example : demoS.2.createRequest demoS.1 (some "set_x".toList) = none := rfl
example : (Prp.mk "x".toList 100 .readOnly).getValue demoS.1 true
    ⟨[⟨.Int32, .int 3⟩, ⟨.Int32, .int 4⟩], false⟩ = .value ⟨.Int32, .int 4⟩ := rfl
example : (Prp.mk "x".toList 100 .readWrite).setValue demoS.1 true ⟨.Int32, .int 11⟩ =
    .refused := rfl
example : FieldsEarlier initial := by
  have : ∀ e ∈ initial, e.type.fields = [] := by decide
  intro pre e post h f hf
  rw [this e (by rw [h]; simp)] at hf
  cases hf

end Verif.Pub
