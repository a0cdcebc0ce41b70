import Verif.Raise.Pushed
import Verif.Raise.ValuesProps
import Verif.Field.RefusedProps

/-! Property C153: what the exception says when a write is refused by a connected field. -/
namespace Verif.Raise
open Verif.Any (Kind Fl Val Any Out)
open Verif.Field (Cell Net Visits VisitsAll Reach Acyclic Unconnected Op)

/-! ### Specification -/

/-- The call without what its exception carries. -/
def ResE.forget : ResE → Field.Res
  | .ok n => .ok n
  | .raised n _ _ => .raised n
  | .ub => .ub
  | .diverges => .diverges

/-- A write of `i` can get to `j` along the connections. -/
inductive Along (n : Net) : Nat → Nat → Prop
  | here {i} : Along n i i
  | step {i t j} (h : t ∈ (n i).targets) (hr : Along n t j) : Along n i j

/-- `c` is an enumeration that has no literal for the number which `a` is. -/
def NoLiteral (narrow : Fl → Fl) (c : Cell) (a : Any) : Prop :=
  c.kind = .Int32 ∧ ∃ ls, c.lits = some ls ∧
    ∀ x, Field.coerce narrow .Int32 c.len a = .ok (.int x) → x ∉ ls

/-- What the exception says is true of the field `j`, which was given `a`. -/
def Says (narrow : Fl → Fl) (n : Net) (j : Nat) (a : Any) (sender : Option Nat) : FEx → Prop
  | .fieldValue b => sender = some j ∧ b = a ∧ NoLiteral narrow (n j) a
  | .anyType r => sender = none ∧ convRaises narrow (n j).kind a = some (.anyType r)
  | .primitive k => sender = some j ∧ k = .None ∧ (n j).kind = .None
  | _ => False

/-! ### Lemmas -/

/-- Apart from values nothing differs. -/
def Shape (n m : Net) : Prop := ∀ j, ∃ w, m j = { n j with value := w }

theorem Shape.refl (n : Net) : Shape n n := fun j => ⟨(n j).value, rfl⟩

theorem Shape.set {n m : Net} (h : Shape n m) (i : Nat) (v : Val) :
    Shape n (m.set i { m i with value := v }) := by
  intro j
  obtain ⟨w, hw⟩ := h j
  by_cases hj : j = i
  · subst hj; exact ⟨v, by simp [Net.set, hw]⟩
  · exact ⟨w, by simp [Net.set, hj, hw]⟩

theorem refused_kind {narrow : Fl → Fl} {c : Cell} {a : Any} {v : Val}
    (hv : Field.coerce narrow c.kind c.len a = .ok v) (h : c.accepts v = false) :
    NoLiteral narrow c a := by
  unfold Field.Cell.accepts at h
  have hk32 : c.kind = .Int32 := by
    split at h
    · cases h
    · simp at h; exact h.1
    · simpa using h
  refine ⟨hk32, ?_⟩
  cases hls : c.lits with
  | none => rw [hls] at h; cases h
  | some ls =>
    refine ⟨ls, rfl, fun w hw => ?_⟩
    rw [hk32, hw] at hv
    cases hv
    rw [hls] at h
    simp at h
    exact h.2

theorem loop_forget {set : Net → Nat → Any → ResE} {set' : Net → Nat → Any → Field.Res}
    (h : ∀ n i a, (set n i a).forget = set' n i a) (i : Nat) :
    ∀ (ts : List Nat) (n : Net), (pushLoopE set n i ts).forget = Field.pushLoop set' n i ts := by
  intro ts
  induction ts with
  | nil => intro n; rfl
  | cons t ts ih =>
    intro n
    have := h n t (n i).get
    rw [pushLoopE, Field.pushLoop, ← this]
    cases hs : set n t (n i).get with
    | ok n' => exact ih n'
    | _ => rfl

theorem conv_throw {narrow : Fl → Fl} {k : Kind} {len : Nat} {a : Any} (hk : k ≠ .None) :
    (∀ e, e ≠ .ub → convRaises narrow k a = some e → Field.coerce narrow k len a = .throw) ∧
    (convRaises narrow k a = some .ub → Field.coerce narrow k len a = .ub) ∧
    (convRaises narrow k a = none → ∃ v, Field.coerce narrow k len a = .ok v) := by
  have hsame := conv_same narrow k len a hk
  refine ⟨fun e he h => ?_, fun h => ?_, fun h => ?_⟩
  all_goals rw [h] at hsame
  · cases hco : Field.coerce narrow k len a with
    | ok v => rw [hco] at hsame; cases e <;> cases hsame
    | throw => rfl
    | ub => rw [hco] at hsame; cases e <;> first | exact absurd rfl he | cases hsame
  · cases hco : Field.coerce narrow k len a with
    | ok v => rw [hco] at hsame; cases hsame
    | throw => rw [hco] at hsame; cases hsame
    | ub => rfl
  · cases hco : Field.coerce narrow k len a with
    | ok v => exact ⟨v, rfl⟩
    | throw => rw [hco] at hsame; cases hsame
    | ub => rw [hco] at hsame; cases hsame

theorem store_forget {set : Net → Nat → Any → ResE} {set' : Net → Nat → Any → Field.Res}
    (h : ∀ n i a, (set n i a).forget = set' n i a) (n : Net) (i : Nat) (a : Any) (v : Val) :
    (storeE set n i a v).forget = Field.store set' n i v := by
  unfold storeE Field.store
  split
  · rfl
  · split
    · dsimp only
      split
      · exact loop_forget h i _ _
      · rfl
    · rfl

/-- What is told about a call. -/
def Told (narrow : Fl → Fl) (n0 : Net) (i : Nat) (a : Any) (r : ResE) : Prop :=
  (∀ m, r = .ok m → Shape n0 m) ∧
  ∀ m s e, r = .raised m s e → Shape n0 m ∧ ∃ j b, Says narrow n0 j b s e ∧
    ((j = i ∧ b = a) ∨ ∃ p, Along n0 i p ∧ j ∈ (n0 p).targets ∧ b = (m p).get)

/-- What is told about a push. -/
def ToldAll (narrow : Fl → Fl) (n0 : Net) (i : Nat) (r : ResE) : Prop :=
  (∀ m, r = .ok m → Shape n0 m) ∧
  ∀ m s e, r = .raised m s e → Shape n0 m ∧ ∃ j b p, Says narrow n0 j b s e ∧ Along n0 i p ∧
    j ∈ (n0 p).targets ∧ b = (m p).get

theorem told_loop (narrow : Fl → Fl) (n0 : Net) (set : Net → Nat → Any → ResE)
    (hset : ∀ n i a, Shape n0 n → Told narrow n0 i a (set n i a) ∧
      ∀ m s e, set n i a = .raised m s e → (∃ j b, Says narrow n0 j b s e ∧
        ((j = i ∧ b = a ∧ m = n) ∨ ∃ p, Along n0 i p ∧ j ∈ (n0 p).targets ∧ b = (m p).get)))
    (i : Nat) : ∀ (ts : List Nat), (∀ t ∈ ts, t ∈ (n0 i).targets) → ∀ n, Shape n0 n →
      ToldAll narrow n0 i (pushLoopE set n i ts) := by
  intro ts
  induction ts with
  | nil =>
    intro _ n hn
    exact ⟨fun m h => by cases h; exact hn, fun m s e h => (nomatch h)⟩
  | cons t ts ih =>
    intro hsub n hn
    obtain ⟨⟨h1, h2⟩, h3⟩ := hset n t (n i).get hn
    rw [pushLoopE]
    cases hs : set n t (n i).get with
    | ok n' => exact ih (fun t ht => hsub t (by simp [ht])) n' (h1 n' hs)
    | ub => exact ⟨fun m h => (nomatch h), fun m s e h => (nomatch h)⟩
    | diverges => exact ⟨fun m h => (nomatch h), fun m s e h => (nomatch h)⟩
    | raised m s e =>
      refine ⟨fun m h => (nomatch h), fun m' s' e' h => ?_⟩
      cases h
      refine ⟨(h2 m s e hs).1, ?_⟩
      obtain ⟨j, b, hsay, hor⟩ := h3 m s e hs
      rcases hor with ⟨rfl, rfl, rfl⟩ | ⟨p, hp1, hp2, hp3⟩
      · exact ⟨j, _, i, hsay, .here, hsub j (by simp), rfl⟩
      · exact ⟨j, b, p, hsay, .step (hsub t (by simp)) hp1, hp2, hp3⟩

theorem says_shape {narrow : Fl → Fl} {n0 n : Net} (h : Shape n0 n) {j : Nat} {a : Any} {s : Option Nat}
    {e : FEx} (hs : Says narrow n j a s e) : Says narrow n0 j a s e := by
  obtain ⟨w, hw⟩ := h j
  cases e <;> simp_all [Says, NoLiteral]

theorem told_set (narrow : Fl → Fl) (n0 : Net) : ∀ (f : Nat) (n : Net) (i : Nat) (a : Any), Shape n0 n →
    Told narrow n0 i a (setValueE narrow f n i a) ∧
    ∀ m s e, setValueE narrow f n i a = .raised m s e → (∃ j b, Says narrow n0 j b s e ∧
      ((j = i ∧ b = a ∧ m = n) ∨ ∃ p, Along n0 i p ∧ j ∈ (n0 p).targets ∧ b = (m p).get)) := by
  intro f
  induction f with
  | zero =>
    intro n i a _
    exact ⟨⟨fun m h => (nomatch h), fun m s e h => (nomatch h)⟩, fun m s e h => (nomatch h)⟩
  | succ f ih =>
    intro n i a hn
    -- a refusal of the field itself
    have own : ∀ s e, Says narrow n i a s e →
        Told narrow n0 i a (.raised n s e) ∧
        ∀ m s' e', ResE.raised n s e = .raised m s' e' → (∃ j b, Says narrow n0 j b s' e' ∧
          ((j = i ∧ b = a ∧ m = n) ∨ ∃ p, Along n0 i p ∧ j ∈ (n0 p).targets ∧ b = (m p).get)) := by
      intro s e hs
      have hs' := says_shape hn hs
      refine ⟨⟨fun m h => (nomatch h), fun m s' e' h => ?_⟩, fun m s' e' h => ?_⟩
      · cases h; exact ⟨hn, i, a, hs', .inl ⟨rfl, rfl⟩⟩
      · cases h; exact ⟨i, a, hs', .inl ⟨rfl, rfl, rfl⟩⟩
    have none' : ∀ r, (r = .ub ∨ r = .diverges) → Told narrow n0 i a r ∧
        ∀ m s' e', r = .raised m s' e' → (∃ j b, Says narrow n0 j b s' e' ∧
          ((j = i ∧ b = a ∧ m = n) ∨ ∃ p, Along n0 i p ∧ j ∈ (n0 p).targets ∧ b = (m p).get)) := by
      rintro r (rfl | rfl)
      all_goals exact ⟨⟨fun m h => (nomatch h), fun m s e h => (nomatch h)⟩, fun m s e h => (nomatch h)⟩
    have okk : ∀ m0, Shape n0 m0 → Told narrow n0 i a (.ok m0) ∧
        ∀ m s' e', ResE.ok m0 = .raised m s' e' → (∃ j b, Says narrow n0 j b s' e' ∧
          ((j = i ∧ b = a ∧ m = n) ∨ ∃ p, Along n0 i p ∧ j ∈ (n0 p).targets ∧ b = (m p).get)) := by
      intro m0 hm0
      exact ⟨⟨fun m h => by cases h; exact hm0, fun m s e h => (nomatch h)⟩, fun m s e h => (nomatch h)⟩
    rw [setValueE]
    by_cases hk : (n i).kind = .None
    · rw [if_pos hk]
      exact own _ _ ⟨rfl, rfl, hk⟩
    rw [if_neg hk]
    cases hcv : convRaises narrow (n i).kind a with
    | some e =>
      rcases conv_raises hcv with rfl | ⟨r, rfl, _⟩
      · exact none' _ (.inl rfl)
      · exact own none _ ⟨rfl, hcv⟩
    | none =>
      dsimp only
      cases hco : Field.coerce narrow (n i).kind (n i).len a with
      | throw => exact none' _ (.inl rfl)
      | ub => exact none' _ (.inl rfl)
      | ok v =>
        dsimp only
        unfold storeE
        split
        · exact okk n hn
        · split
          · dsimp only
            split
            · have ht : (n i).targets = (n0 i).targets := by
                obtain ⟨w, hw⟩ := hn i; rw [hw]
              have := told_loop narrow n0 (setValueE narrow f) ih i (n i).targets
                (fun t h => ht ▸ h) _ (hn.set i v)
              refine ⟨⟨this.1, fun m s e h => ?_⟩, fun m s e h => ?_⟩
              · obtain ⟨h1, j, b, p, h2, h3, h4, h5⟩ := this.2 m s e h
                exact ⟨h1, j, b, h2, .inr ⟨p, h3, h4, h5⟩⟩
              · obtain ⟨h1, j, b, p, h2, h3, h4, h5⟩ := this.2 m s e h
                exact ⟨j, b, h2, .inr ⟨p, h3, h4, h5⟩⟩
            · exact okk _ (hn.set i v)
          · rename_i hacc
            exact own _ _ ⟨rfl, rfl, refused_kind hco (by simpa using hacc)⟩

/-! ### C153 -/

/-- C153: the calls are those of the model of fields, and end in the same way. -/
theorem C153_same (narrow : Fl → Fl) : ∀ (f : Nat) (n : Net) (i : Nat) (a : Any),
    (setValueE narrow f n i a).forget = Field.setValue narrow f n i a ∧
    (pushE narrow f n i).forget = Field.step narrow f n (.push i) := by
  have main : ∀ (f : Nat) (n : Net) (i : Nat) (a : Any),
      (setValueE narrow f n i a).forget = Field.setValue narrow f n i a := by
    intro f
    induction f with
    | zero => intro n i a; rfl
    | succ f ih =>
      intro n i a
      rw [setValueE, Field.setValue]
      by_cases hk : (n i).kind = .None
      · rw [if_pos hk, hk]; rfl
      · rw [if_neg hk]
        obtain ⟨h1, h2, h3⟩ := conv_throw (narrow := narrow) (len := (n i).len) (a := a) hk
        cases hcv : convRaises narrow (n i).kind a with
        | some e =>
          by_cases he : e = .ub
          · subst he; rw [h2 hcv]; rfl
          · rw [h1 e he hcv]
            cases e <;> first | exact absurd rfl he | rfl
        | none =>
          obtain ⟨v, hv⟩ := h3 hcv
          rw [hv]
          exact store_forget ih n i a v
  exact fun f n i a => ⟨main f n i a, loop_forget (main f) i _ n⟩

/-- C153: whatever the fields, their connections (with cycles or not) and their values: what the exception
of a write says is true of the field written with the value given, or of a field `j` on the way, with the
value of a field connected to it. `InvalidFieldValue` is raised for an enumeration without that literal
and names this enumeration and the value. -/
theorem C153_tells (narrow : Fl → Fl) (f : Nat) (n : Net) (i : Nat) (a : Any) (m : Net) (s : Option Nat)
    (e : FEx) (h : setValueE narrow f n i a = .raised m s e) :
    ∃ j b, Says narrow n j b s e ∧
      ((j = i ∧ b = a) ∨ ∃ p, Along n i p ∧ j ∈ (n p).targets ∧ b = (m p).get) :=
  (((told_set narrow n f n i a (.refl n)).1).2 m s e h).2

/-- C153 for `Push`. -/
theorem C153_push_tells (narrow : Fl → Fl) (f : Nat) (n : Net) (i : Nat) (m : Net) (s : Option Nat)
    (e : FEx) (h : pushE narrow f n i = .raised m s e) :
    ∃ j b p, Says narrow n j b s e ∧ Along n i p ∧ j ∈ (n p).targets ∧ b = (m p).get :=
  ((told_loop narrow n _ (told_set narrow n f) i (n i).targets (fun _ h => h) n (.refl n)).2 m s e h).2

/-- The first of `l` that refuses. -/
theorem first_refusing (n : Net) (v : Val) : ∀ l : List Nat, (∃ j ∈ l, (n j).accepts v = false) →
    ∃ before j after, l = before ++ j :: after ∧ (∀ k ∈ before, (n k).accepts v = true) ∧
      (n j).accepts v = false := by
  intro l
  induction l with
  | nil => rintro ⟨j, hj, _⟩; cases hj
  | cons x l ih =>
    rintro ⟨j, hj, hr⟩
    cases hx : (n x).accepts v with
    | false => exact ⟨[], x, l, rfl, by simp, hx⟩
    | true =>
      have : j ∈ l := by
        rcases List.mem_cons.1 hj with rfl | h
        · rw [hx] at hr; cases hr
        · exact h
      obtain ⟨b, k, c, h1, h2, h3⟩ := ih ⟨j, this, hr⟩
      refine ⟨x :: b, k, c, by simp [h1], fun y hy => ?_, h3⟩
      rcases List.mem_cons.1 hy with rfl | hy
      · exact hx
      · exact h2 y hy

open Verif.Field (Written)
open Verif.Field.Refused (Ends)

/-- The exception names the first field of `l` that refuses. -/
def Names (n : Net) (v : Val) (k : Kind) (l : List Nat) (r : ResE) : Prop :=
  ∀ before j after, l = before ++ j :: after → (∀ x ∈ before, (n x).accepts v = true) →
    (n j).accepts v = false → ∃ m, r = .raised m (some j) (.fieldValue ⟨k, v⟩)

theorem forget_ok {r : ResE} {m : Net} (h : r.forget = .ok m) : r = .ok m := by
  cases r <;> cases h
  rfl

/-- Where the first one that refuses is. -/
theorem split_append {P : Nat → Bool} {a b before after : List Nat} {j : Nat}
    (h : a ++ b = before ++ j :: after) (hb : ∀ x ∈ before, P x = true) (hj : P j = false) :
    (∃ after', a = before ++ j :: after') ∨
    ((∀ x ∈ a, P x = true) ∧ ∃ before', b = before' ++ j :: after ∧ ∀ x ∈ before', P x = true) := by
  induction a generalizing before with
  | nil => exact .inr ⟨by simp, before, h, hb⟩
  | cons x a ih =>
    cases before with
    | nil =>
      simp only [List.nil_append, List.cons_append, List.cons.injEq] at h
      exact .inl ⟨a, by simp [h.1]⟩
    | cons y before =>
      simp only [List.cons_append, List.cons.injEq] at h
      obtain ⟨rfl, h⟩ := h
      rcases ih h (fun z hz => hb z (by simp [hz])) with ⟨c, rfl⟩ | ⟨h1, b', h2, h3⟩
      · exact .inl ⟨c, rfl⟩
      · refine .inr ⟨fun z hz => ?_, b', h2, h3⟩
        rcases List.mem_cons.1 hz with rfl | hz
        · exact hb z (by simp)
        · exact h1 z hz

theorem loop_names (set : Net → Nat → Any → ResE) (n : Net) (v : Val) (i : Nat)
    (hset : ∀ t ∈ (n i).targets, ∀ l, Visits n t l → (∀ j ∈ l, (n j).Fits v) → ∀ A m,
      Written n v A m → Ends n v A l (set m t ⟨(n i).kind, v⟩).forget ∧
        Names n v (n i).kind l (set m t ⟨(n i).kind, v⟩)) :
    ∀ (ts l : List Nat), VisitsAll n ts l → (∀ t ∈ ts, t ∈ (n i).targets) →
      (∀ j ∈ l, (n j).Fits v) → ∀ A m, Written n v A m → (m i).get = ⟨(n i).kind, v⟩ →
      Names n v (n i).kind l (pushLoopE set m i ts) := by
  intro ts
  induction ts with
  | nil =>
    intro l hl _ _ A m _ _ before j after h
    cases hl
    simp at h
  | cons t ts ih =>
    intro l hl hsub hfit A m hm hget before j after h hb hj
    cases hl with
    | @cons _ _ l ls hv hs =>
      obtain ⟨E, N⟩ := hset t (hsub t (by simp)) l hv (fun j hj => hfit j (by simp [hj])) A m hm
      rw [pushLoopE, hget]
      rcases split_append (P := fun x => (n x).accepts v) h hb hj with ⟨c, hc⟩ | ⟨hal, b', hb', hb2⟩
      · obtain ⟨m1, e1⟩ := N before j c hc hb hj
        exact ⟨m1, by rw [e1]⟩
      · obtain ⟨m1, e1, w1⟩ := E.1 hal
        rw [forget_ok e1]
        dsimp only
        have hg1 : (m1 i).get = ⟨(n i).kind, v⟩ := by
          by_cases hi : i ∈ A ++ l
          · rw [(w1 i).1 hi]; rfl
          · have hiA : i ∉ A := fun hh => hi (by simp [hh])
            rw [((w1 i).2 hi).trans ((hm i).2 hiA).symm]; exact hget
        exact ih ls hs (fun t ht => hsub t (by simp [ht])) (fun j hj => hfit j (by simp [hj])) (A ++ l)
          m1 w1 hg1 b' j after hb' hb2 hj

theorem set_names (narrow : Fl → Fl) (n : Net) (v : Val) (rank : Nat → Nat)
    (hrank : ∀ i, ∀ t ∈ (n i).targets, rank t < rank i)
    (hkind : ∀ i, ∀ t ∈ (n i).targets, (n t).kind = (n i).kind) :
    ∀ (f i : Nat), rank i < f → (n i).kind ≠ .None → Any.Ok ⟨(n i).kind, v⟩ →
    ∀ l, Visits n i l → (∀ j ∈ l, (n j).Fits v) → ∀ A m, Written n v A m →
      Ends n v A l (setValueE narrow f m i ⟨(n i).kind, v⟩).forget ∧
      Names n v (n i).kind l (setValueE narrow f m i ⟨(n i).kind, v⟩) := by
  intro f
  induction f with
  | zero => intro i h; omega
  | succ f ih =>
    intro i hr hne hok l hl hfit A m hm
    refine ⟨?_, ?_⟩
    · rw [(C153_same narrow (f + 1) m i _).1]
      exact Field.Refused.set_ends narrow n v rank hrank hkind (f + 1) i hr hne hok l hl hfit A m hm
    intro before j after h hb hj
    obtain ⟨w, hw⟩ := hm.cell i
    have h1 : (m i).kind = (n i).kind := by rw [hw]
    have h2 : (m i).len = (n i).len := by rw [hw]
    have h3 : (m i).held = (n i).held := by rw [hw]; rfl
    have h4 : (m i).accepts v = (n i).accepts v := by rw [hw]; rfl
    have h5 : (m i).connectable = (n i).connectable := by rw [hw]
    have h6 : (m i).targets = (n i).targets := by rw [hw]
    have hh : (n i).held = false ∧ i ∈ l := by
      cases hl with
      | held h' => simp at h
      | last h' => exact ⟨h', by simp⟩
      | push h' => exact ⟨h', by simp⟩
    have hco := Field.coerce_same narrow (n i) v (hfit i hh.2)
    have hcv : convRaises narrow (n i).kind ⟨(n i).kind, v⟩ = none := by
      have := conv_same narrow (n i).kind (n i).len ⟨(n i).kind, v⟩ hne
      rw [hco] at this
      cases hc : convRaises narrow (n i).kind ⟨(n i).kind, v⟩ with
      | none => rfl
      | some e => rw [hc] at this; cases e <;> cases this
    rw [setValueE, h1, if_neg hne, hcv, h2]
    dsimp only
    rw [hco]
    dsimp only
    unfold storeE
    rw [h3, hh.1, h4, h5, h6]
    simp only [Bool.false_eq_true, if_false]
    have here : (n i).accepts v = false → j = i := by
      intro hf
      have hcons : ∃ r, l = i :: r := by
        cases hl with
        | held h' => rw [hh.1] at h'; cases h'
        | last => exact ⟨[], rfl⟩
        | @push _ l' => exact ⟨l', rfl⟩
      obtain ⟨r, rfl⟩ := hcons
      cases before with
      | nil => simp at h; exact h.1.symm
      | cons b bs =>
        simp at h
        have := hb b (by simp)
        rw [← h.1, hf] at this
        cases this
    cases ha : (n i).accepts v with
    | false =>
      rw [here ha]
      exact ⟨m, by simp⟩
    | true =>
      simp only [if_true]
      cases hl with
      | held h' => simp at h
      | last h' hc =>
        exfalso
        cases before with
        | nil => simp at h; rw [← h.1, ha] at hj; cases hj
        | cons b bs => simp at h
      | @push _ l' h' hc hl' =>
        rw [if_pos hc]
        cases before with
        | nil => simp at h; rw [← h.1, ha] at hj; cases hj
        | cons b bs =>
          simp only [List.cons_append, List.cons.injEq] at h
          refine loop_names (setValueE narrow f) n v i (fun t ht l2 hl2 hf2 A2 m2 hm2 => ?_) (n i).targets
            l' hl' (fun _ h => h) (fun j hj => hfit j (by simp [hj])) (A ++ [i]) _
            (Field.Refused.written_set hm i) (by simp [Net.set, Cell.get, h1]) bs j after h.2
            (fun x hx => hb x (by simp [hx])) hj
          have hk := hkind i t ht
          have := ih t (by have := hrank i t ht; omega) (by rw [hk]; exact hne)
            (by rw [hk]; exact hok) l2 hl2 hf2 A2 m2 hm2
          rw [hk] at this
          exact this

/-- C153: after any history, when the connections have no cycle: if a write of a value of the kind of the
field, that fits the fields it gets to, is refused, the exception is `InvalidFieldValue` with that
value, and its sender is the first field that refuses, in the order in which the write gets to the
connected fields. -/
theorem C153_first_partial (narrow : Fl → Fl) (f0 : Nat) (n0 n : Net) (h0 : Unconnected n0)
    (ops : List Op) (hrun : Field.run narrow f0 n0 ops = some n) (hac : Acyclic n) (i : Nat) (v : Val)
    (hne : (n i).kind ≠ .None) (hok : Any.Ok ⟨(n i).kind, v⟩)
    (hfit : ∀ j, Reach n i j → (n j).Fits v) :
    ∃ l, Visits n i l ∧ ((∃ j ∈ l, (n j).accepts v = false) →
      ∃ before j after, l = before ++ j :: after ∧ (∀ k ∈ before, (n k).accepts v = true) ∧
        (n j).accepts v = false ∧
        ∃ F, ∀ f, F ≤ f → ∃ m, setValueE narrow f n i ⟨(n i).kind, v⟩ =
          .raised m (some j) (.fieldValue ⟨(n i).kind, v⟩)) := by
  obtain ⟨rank, hrank⟩ := hac
  have hw := Field.C58_wired narrow f0 n0 n h0 ops hrun
  have hk : ∀ i, ∀ t ∈ (n i).targets, (n t).kind = (n i).kind := fun i t ht => (hw.ok i t ht).2.1
  obtain ⟨l, hl⟩ := Field.Refused.visits_exists n rank hrank (rank i + 1) i (Nat.lt_succ_self _)
  have hf : ∀ j ∈ l, (n j).Fits v := fun j hj => hfit j (Field.Refused.visits_reach hl j hj)
  have hn : Written n v [] n := fun j => ⟨fun h => absurd h (List.not_mem_nil), fun _ => rfl⟩
  refine ⟨l, hl, fun hex => ?_⟩
  obtain ⟨b, j, c, h1, h2, h3⟩ := first_refusing n v l hex
  exact ⟨b, j, c, h1, h2, h3, rank i + 1, fun f hlt =>
    (set_names narrow n v rank hrank hk f i hlt hne hok l hl hf [] n hn).2 b j c h1 h2 h3⟩

/-- C153 in full is false: a value that cannot be converted is refused with an exception that has no
sender and does not tell the value, for every field. -/
theorem C153_sender_fails (narrow : Fl → Fl) (f : Nat) (n : Net) (i : Nat) (a : Any)
    (hk : (n i).kind ≠ .None) (h : Field.coerce narrow (n i).kind (n i).len a = .throw) :
    ∃ r, setValueE narrow (f + 1) n i a = .raised n none (.anyType r) := by
  have hsame := conv_same narrow (n i).kind (n i).len a hk
  rw [h] at hsame
  rw [setValueE, if_neg hk]
  cases hc : convRaises narrow (n i).kind a with
  | none => rw [hc] at hsame; cases hsame
  | some e =>
    rcases conv_raises hc with rfl | ⟨r, rfl, _⟩
    · rw [hc] at hsame; cases hsame
    · exact ⟨r, rfl⟩

/-! ### Cases -/

/-- Field 0 pushes to field 1, an enumeration with the literals 1 and 2; a write of 7 is refused by it. -/
def modes : Net := fun i =>
  if i = 0 then ⟨.Int32, 0, true, true, true, false, none, .int 1, false, [2, 1]⟩
  else if i = 1 then mode
  else ⟨.Int32, 0, true, true, true, false, none, .int 1, false, []⟩

example : (match setValueE id 5 modes 0 ⟨.Int32, .int 7⟩ with
    | .raised m s e => decide ((m 0).value = .int 7 ∧ (m 2).value = .int 7 ∧ s = some 1 ∧
        e = .fieldValue ⟨.Int32, .int 7⟩)
    | _ => false) = true := by decide

/-- The hypotheses of `C153_first_partial`: those not shown here are in the case beside `C144_write_partial`, with
the same fields. -/
example : ∃ n, Field.run id 9 Field.demoRefused [.connect 0 1, .connect 0 2] = some n ∧
    (match setValueE id 9 n 0 ⟨.Int32, .int 7⟩ with
      | .raised _ s e => decide (s = some 1 ∧ e = .fieldValue ⟨.Int32, .int 7⟩)
      | _ => false) = true := ⟨_, rfl, by decide⟩

/-- The hypotheses of `C153_sender_fails`. -/
example : Field.coerce id (modes 0).kind (modes 0).len ⟨.Int64, .int 5000000000⟩ = .throw := by decide

end Verif.Raise
