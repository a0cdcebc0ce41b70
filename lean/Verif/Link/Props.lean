import Verif.Link.Model

/-
Properties C22-C24 of the link registry. A history is a list of calls, newest first.
-/
namespace Verif.Link

/-! ### Vocabulary -/

/-- Number of calls `AddLink(s, t)` of a history. -/
def adds (s t : Comp) (h : List Op) : Nat := h.count (.add s t)

/-- Number of calls `RemoveLink(s, t)` of a history that returned true. -/
def removals (s t : Comp) (l : List (Op × Res)) : Nat := l.count (.remove s t, .bool true)

/-- The registry after a history. -/
def after (env : Env) (h : List Op) : Reg := (run env h).1

/-! ### Lemmas -/

theorem u32_lt {n : Nat} (h : n < 4294967296) : u32 n = n := by
  unfold u32; omega

theorem u32_pred {n : Nat} (h : n < 4294967296) (h0 : 0 < n) : u32 ((n : Int) - 1) = n - 1 := by
  unfold u32; omega

/-- Entries are positive, and `count + removals = additions`. -/
structure Counted (env : Env) (h : List Op) (s t : Comp) : Prop where
  pos : ∀ n, (after env h).links.find (s, t) = some n → 0 < n
  sum : getLinkCount (after env h) s t + removals s t (run env h).2 = adds s t h

theorem after_cons (env : Env) (o : Op) (h : List Op) :
    after env (o :: h) = (apply env (after env h) o).1 := rfl

theorem removals_cons (env : Env) (o : Op) (h : List Op) (s t : Comp) :
    removals s t (run env (o :: h)).2 = removals s t (run env h).2 +
      (if o = .remove s t ∧ (apply env (after env h) o).2 = .bool true then 1 else 0) := by
  have e : (run env (o :: h)).2 = (o, (apply env (after env h) o).2) :: (run env h).2 := rfl
  unfold removals
  rw [e, List.count_cons]
  congr 1
  simp

theorem adds_cons (o : Op) (h : List Op) (s t : Comp) :
    adds s t (o :: h) = adds s t h + (if o = .add s t then 1 else 0) := by
  unfold adds; rw [List.count_cons]; simp

/-- A call about another pair of components does not change the entry of `(s, t)`. -/
theorem apply_links {env : Env} {r : Reg} {o : Op} {s t : Comp} (h1 : o ≠ .add s t)
    (h2 : o ≠ .remove s t) : (apply env r o).1.links.find (s, t) = r.links.find (s, t) := by
  cases o with
  | add s' t' =>
    have hne : (s, t) ≠ (s', t') := by intro h; apply h1; cases h; rfl
    simp only [apply, addLink]
    split
    · simp only [Assoc.find_set_ne hne]
    · split <;> simp only [Assoc.find_set_ne hne]
  | remove s' t' =>
    have hne : (s, t) ≠ (s', t') := by intro h; apply h2; cases h; rfl
    simp only [apply, removeLink]
    split
    · rfl
    · split
      · split <;> simp only [Assoc.find_erase_ne hne]
      · simp only [Assoc.find_set_ne hne]
  | sources t' => rfl

theorem counted (env : Env) (h : List Op) (s t : Comp) (hb : adds s t h < 4294967296) :
    Counted env h s t := by
  induction h with
  | nil => exact ⟨by simp [after, run, init, Assoc.find], by
      simp [after, run, init, getLinkCount, Assoc.find, removals, adds]⟩
  | cons o h ih =>
    have hb' : adds s t h < 4294967296 := by rw [adds_cons] at hb; omega
    obtain ⟨p, q⟩ := ih hb'
    have hr := removals_cons env o h s t
    have ha := adds_cons o h s t
    have hle : getLinkCount (after env h) s t < 4294967296 := by omega
    by_cases h1 : o = .add s t
    · subst h1
      have e : (after env (.add s t :: h)).links.find (s, t) =
          some (getLinkCount (after env h) s t + 1) := by
        rw [after_cons]
        simp only [apply, addLink, getLinkCount]
        cases hf : (after env h).links.find (s, t) with
        | none => simp only [Option.getD]; split <;> simp only [Assoc.find_set_self]
        | some n =>
          simp only [Assoc.find_set_self, Option.getD]
          simp only [getLinkCount, hf, Option.getD] at q
          congr 1
          exact u32_lt (n := n + 1) (by simp at ha; omega)
      refine ⟨?_, ?_⟩
      · intro n hn; rw [e] at hn; cases hn; omega
      · rw [hr, ha]
        have hc : getLinkCount (after env (.add s t :: h)) s t =
            getLinkCount (after env h) s t + 1 := by
          rw [show getLinkCount (after env (.add s t :: h)) s t = _ from
            congrArg (Option.getD · 0) e]
          rfl
        rw [hc]
        simp
        omega
    · by_cases h2 : o = .remove s t
      · subst h2
        cases hf : (after env h).links.find (s, t) with
        | none =>
          have e : apply env (after env h) (.remove s t) = (after env h, .bool false) := by
            simp only [apply, removeLink, hf]
          refine ⟨?_, ?_⟩
          · rw [after_cons, e]; exact p
          · rw [hr, ha, after_cons, e]; simpa using q
        | some n =>
          have hn := p n hf
          have hcnt : getLinkCount (after env h) s t = n := by simp [getLinkCount, hf]
          have e2 : (apply env (after env h) (.remove s t)).2 = .bool true := by
            simp only [apply, removeLink, hf]
            split
            · split <;> rfl
            · rfl
          have e1 : (after env (.remove s t :: h)).links.find (s, t) =
              if n = 1 then none else some (n - 1) := by
            rw [after_cons]
            simp only [apply, removeLink, hf, u32_pred (by omega : n < 4294967296) hn]
            split
            · rw [if_pos (by omega)]; split <;> simp only [Assoc.find_erase_self]
            · rw [if_neg (by omega)]; simp only [Assoc.find_set_self]
          refine ⟨?_, ?_⟩
          · intro m hm; rw [e1] at hm; split at hm
            · cases hm
            · cases hm; omega
          · rw [hr, ha]
            simp only [getLinkCount, e1, e2]
            simp
            split
            · simp; omega
            · simp; omega
      · have e := apply_links (env := env) (r := after env h) h1 h2
        refine ⟨?_, ?_⟩
        · intro n hn; rw [after_cons, e] at hn; exact p n hn
        · rw [hr, ha]
          simp only [getLinkCount, after_cons, e]
          simp [h1, h2]
          exact q

/-! ### C22 -/

/-- **C22 (partial), count.** For every history, sources and targets: the link count is
the number of `AddLink` calls minus the number of successful `RemoveLink` calls. The
calls a source makes when it is asked to drop its links are part of the history. Missing:
2^32 additions of one link, see `C22_wrap_fails`. -/
theorem C22_count_partial (env : Env) (h : List Op) (s t : Comp) (hb : adds s t h < 4294967296) :
    getLinkCount (after env h) s t + removals s t (run env h).2 = adds s t h :=
  (counted env h s t hb).sum

/-- **C22, count, every history.** The link count is the number of `AddLink` calls minus the number of
successful `RemoveLink` calls, modulo 2^32, however many there are. -/
theorem C22_modular (env : Env) (h : List Op) (s t : Comp) :
    (getLinkCount (after env h) s t + removals s t (run env h).2) % 4294967296 =
      adds s t h % 4294967296 := by
  induction h with
  | nil => simp [after, run, init, getLinkCount, Assoc.find, removals, adds]
  | cons o h ih =>
    have hr := removals_cons env o h s t
    have ha := adds_cons o h s t
    by_cases h1 : o = .add s t
    · subst h1
      have e : getLinkCount (after env (.add s t :: h)) s t % 4294967296 =
          (getLinkCount (after env h) s t + 1) % 4294967296 := by
        rw [after_cons]
        simp only [apply, addLink, getLinkCount]
        cases hf : (after env h).links.find (s, t) with
        | none => dsimp only; split <;> simp [Assoc.find_set_self]
        | some n => simp only [Assoc.find_set_self, Option.getD]; unfold u32; omega
      rw [hr, ha]
      simp
      omega
    · by_cases h2 : o = .remove s t
      · subst h2
        cases hf : (after env h).links.find (s, t) with
        | none =>
          have e : apply env (after env h) (.remove s t) = (after env h, .bool false) := by
            simp only [apply, removeLink, hf]
          rw [hr, ha, after_cons, e]
          simpa using ih
        | some n =>
          have hcnt : getLinkCount (after env h) s t = n := by simp [getLinkCount, hf]
          have e2 : (apply env (after env h) (.remove s t)).2 = .bool true := by
            simp only [apply, removeLink, hf]
            split
            · split <;> rfl
            · rfl
          have e1 : getLinkCount (after env (.remove s t :: h)) s t = u32 ((n : Int) - 1) := by
            rw [after_cons]
            simp only [apply, removeLink, hf, getLinkCount]
            split
            · rename_i h0
              rw [h0]
              split <;> simp only [Assoc.find_erase_self, Option.getD]
            · simp only [Assoc.find_set_self, Option.getD]
          rw [hr, ha, e1, e2]
          rw [hcnt] at ih
          simp
          unfold u32
          omega
      · have e := apply_links (env := env) (r := after env h) h1 h2
        rw [hr, ha]
        simp only [getLinkCount, after_cons, e]
        simp [h1, h2]
        exact ih

/-- **C22 (partial), failure.** `RemoveLink` reports failure exactly when the count is
zero, and then changes nothing. -/
theorem C22_remove_partial (env : Env) (h : List Op) (s t : Comp)
    (hb : adds s t h < 4294967296) :
    ((removeLink (after env h) s t).2 = .bool false ↔ getLinkCount (after env h) s t = 0) ∧
    ((removeLink (after env h) s t).2 = .bool true ↔ 0 < getLinkCount (after env h) s t) ∧
    ((removeLink (after env h) s t).2 = .bool false → (removeLink (after env h) s t).1 =
      after env h) := by
  have p := (counted env h s t hb).pos
  unfold removeLink getLinkCount
  cases hf : (after env h).links.find (s, t) with
  | none => simp
  | some n =>
    have := p n hf
    simp only
    split
    · split <;> simp <;> omega
    · simp; omega

example : adds 1 7 [.remove 1 7, .add 1 7, .remove 2 7, .add 1 7, .add 2 7] < 4294967296 ∧
    getLinkCount (after ⟨id, fun _ => true⟩
      [.remove 1 7, .add 1 7, .remove 2 7, .add 1 7, .add 2 7]) 1 7 = 1 := by decide

/-- The count of one link after `n` additions. -/
theorem count_replicate (env : Env) (n : Nat) :
    (after env (List.replicate (n + 1) (.add 1 7))).links.find (1, 7) = some (u32 (n + 1)) := by
  induction n with
  | zero =>
    simp only [List.replicate, after, run, apply, addLink, init, Assoc.find, Assoc.tryEmplace,
      Assoc.set]
    split <;> rfl
  | succ n ih =>
    rw [List.replicate_succ, after_cons]
    simp only [apply, addLink, ih, Assoc.find_set_self]
    congr 1
    unfold u32
    omega

/-- **C22 fails** after 2^32 additions of a link: the count reads zero although no link
was removed, and `RemoveLink` succeeds nevertheless. -/
theorem C22_wrap_fails (env : Env) (n : Nat) (hn : n = 4294967296) :
    let r := after env (List.replicate n (.add 1 7))
    getLinkCount r 1 7 = 0 ∧ (removeLink r 1 7).2 = .bool true := by
  have e := count_replicate env (n - 1)
  rw [Nat.sub_add_cancel (by omega)] at e
  have e' : u32 (((n - 1 : Nat) : Int) + 1) = 0 := by unfold u32; omega
  rw [e'] at e
  simp only [getLinkCount, removeLink]
  rw [e]
  refine ⟨rfl, ?_⟩
  simp only
  split
  · split <;> rfl
  · rfl

/-! ### C23 -/

/-- Distinct components have distinct names. -/
def Named (env : Env) : Prop := ∀ a b, env.name a = env.name b → a = b

/-- The collections list exactly the sources that have an entry, once. -/
structure Listed (r : Reg) : Prop where
  nodup : ∀ t, (r.of t).Nodup
  mem : ∀ s t, s ∈ r.of t ↔ (r.links.find (s, t)).isSome

theorem of_tryEmplace (r : Reg) (t t' : Comp) (l : Assoc (Comp × Comp) Nat) :
    (Reg.mk l (r.targets.tryEmplace t [])).of t' = r.of t' := by
  simp only [Reg.of, Assoc.find_tryEmplace]
  split
  · rename_i h; rw [h.2]; rfl
  · rfl

theorem collAdd_named {env : Env} (hn : Named env) (l : List Comp) (c : Comp) :
    collAdd env l c = if c ∈ l then none else some (l ++ [c]) := by
  unfold collAdd
  have : l.any (fun d => env.name d == env.name c) = decide (c ∈ l) := by
    rw [Bool.eq_iff_iff]
    simp only [List.any_eq_true, beq_iff_eq, decide_eq_true_eq]
    constructor
    · rintro ⟨d, hd, he⟩; rw [← hn d c he]; exact hd
    · intro h; exact ⟨c, h, rfl⟩
  rw [this]; simp

theorem listed_apply {env : Env} (hn : Named env) {r : Reg} (h : Listed r) (o : Op)
    (hpos : ∀ s t n, r.links.find (s, t) = some n → o = .remove s t → 0 < n ∧ n < 4294967296) :
    Listed (apply env r o).1 ∧ (apply env r o).2 ≠ .duplicateName := by
  cases o with
  | add s t =>
    simp only [apply, addLink]
    cases hf : r.links.find (s, t) with
    | some n =>
      refine ⟨⟨h.nodup, ?_⟩, by simp⟩
      intro s' t'
      rw [show (Reg.mk (r.links.set (s, t) (u32 (n + 1))) r.targets).of t' = r.of t' from rfl,
        h.mem, Assoc.find_set]
      split
      · rename_i he; cases he; simp [hf]
      · rfl
    | none =>
      have hns : s ∉ r.of t := by rw [h.mem, hf]; simp
      have e : ((r.targets.tryEmplace t []).find t).getD [] = r.of t :=
        of_tryEmplace r t t r.links
      simp only [e, collAdd_named hn, if_neg hns]
      have hof : ∀ t', (Reg.mk (r.links.set (s, t) 1)
          ((r.targets.tryEmplace t []).set t (r.of t ++ [s]))).of t' =
          if t' = t then r.of t ++ [s] else r.of t' := by
        intro t'
        simp only [Reg.of, Assoc.find_set]
        split
        · simp
        · rename_i hne
          rw [Assoc.find_tryEmplace, if_neg (fun h => hne h.1)]
      refine ⟨⟨?_, ?_⟩, by simp⟩
      · intro t'
        rw [hof]
        split
        · rw [List.nodup_append]
          refine ⟨h.nodup t, by simp, ?_⟩
          intro a ha b hb hab; simp at hb; subst hb; subst hab; exact hns ha
        · exact h.nodup t'
      · intro s' t'
        rw [hof, Assoc.find_set]
        by_cases ht : t' = t
        · subst ht
          simp only [if_true, List.mem_append, List.mem_singleton]
          rw [h.mem]
          by_cases hs : s' = s
          · subst hs; simp
          · have : (s', t') ≠ (s, t') := by intro he; cases he; exact hs rfl
            simp [hs]
        · have : (s', t') ≠ (s, t) := by intro he; cases he; exact ht rfl
          rw [if_neg ht, if_neg this, h.mem]
  | remove s t =>
    simp only [apply, removeLink]
    cases hf : r.links.find (s, t) with
    | none => exact ⟨h, by simp⟩
    | some n =>
      obtain ⟨hn0, hn1⟩ := hpos s t n hf rfl
      simp only [u32_pred hn1 hn0]
      split
      · rename_i hz
        have hmem : s ∈ r.of t := by rw [h.mem, hf]; rfl
        cases htg : r.targets.find t with
        | none => simp [Reg.of, htg] at hmem
        | some l =>
          have hl : r.of t = l := by simp [Reg.of, htg]
          have hof : ∀ t', (Reg.mk (r.links.erase (s, t))
              (r.targets.set t (collRemove l s))).of t' =
              if t' = t then (r.of t).erase s else r.of t' := by
            intro t'
            simp only [Reg.of, Assoc.find_set]
            split
            · simp [collRemove, htg]
            · rfl
          refine ⟨⟨?_, ?_⟩, by simp⟩
          · intro t'; simp only; rw [hof]; split
            · exact (h.nodup t).erase s
            · exact h.nodup t'
          · intro s' t'
            simp only
            rw [hof, Assoc.find_erase]
            by_cases ht : t' = t
            · subst ht
              simp only [if_true]
              rw [(h.nodup t').mem_erase_iff, h.mem]
              by_cases hs : s' = s
              · subst hs; simp
              · have : (s', t') ≠ (s, t') := by intro he; cases he; exact hs rfl
                simp [hs]
            · have : (s', t') ≠ (s, t) := by intro he; cases he; exact ht rfl
              rw [if_neg ht, if_neg this, h.mem]
      · refine ⟨⟨h.nodup, ?_⟩, by simp⟩
        intro s' t'
        rw [show (Reg.mk (r.links.set (s, t) (n - 1)) r.targets).of t' = r.of t' from rfl,
          h.mem, Assoc.find_set]
        split
        · rename_i he; cases he; simp [hf]
        · rfl
  | sources t =>
    simp only [apply, getLinkSources]
    refine ⟨⟨?_, ?_⟩, by simp⟩
    · intro t'; rw [of_tryEmplace]; exact h.nodup t'
    · intro s' t'; rw [of_tryEmplace]; exact h.mem s' t'

theorem listed {env : Env} (hn : Named env) (h : List Op)
    (hb : ∀ s t, adds s t h < 4294967296) : Listed (after env h) := by
  induction h with
  | nil => exact ⟨by simp [after, run, init, Reg.of, Assoc.find], by
      simp [after, run, init, Reg.of, Assoc.find]⟩
  | cons o h ih =>
    have hb' : ∀ s t, adds s t h < 4294967296 := by
      intro s t; have := hb s t; rw [adds_cons] at this; omega
    rw [after_cons]
    refine (listed_apply hn (ih hb') o ?_).1
    intro s t n hf _
    have hc := counted env h s t (hb' s t)
    refine ⟨hc.pos n hf, ?_⟩
    have := hc.sum
    have := hb' s t
    simp only [getLinkCount, hf, Option.getD] at *
    omega

/-- **C23 (partial).** For every history with fewer than 2^32 additions per link and
components with distinct names: `GetLinkSources(t)` contains no component twice, and
contains a component exactly when its link count towards `t` is positive. Missing:
sources with the same name, see `C23_fails`. -/
theorem C23_sources_partial {env : Env} (hn : Named env) (h : List Op)
    (hb : ∀ s t, adds s t h < 4294967296) (t : Comp) :
    ∃ l, (getLinkSources (after env h) t).2 = .sources l ∧ l.Nodup ∧
      ∀ s, s ∈ l ↔ 0 < getLinkCount (after env h) s t := by
  have hl := listed hn h hb
  refine ⟨_, rfl, hl.nodup t, ?_⟩
  intro s
  rw [hl.mem]
  have hp := (counted env h s t (hb s t)).pos
  unfold getLinkCount
  cases hf : (after env h).links.find (s, t) with
  | none => simp
  | some n => have := hp n hf; simp [this]

example : Named ⟨id, fun _ => true⟩ ∧
    getLinkSources (after ⟨id, fun _ => true⟩ [.remove 2 7, .add 3 7, .add 2 7, .add 1 7]) 7 =
      (after ⟨id, fun _ => true⟩ [.remove 2 7, .add 3 7, .add 2 7, .add 1 7],
        .sources [1, 3]) := ⟨fun _ _ h => h, by decide⟩

/-- **C23 fails** for two sources with the same name: the second `AddLink` throws, its link
is counted nevertheless, and the source is not listed. -/
theorem C23_fails : ∃ (env : Env) (h : List Op),
    (run env h).2.head? = some (.add 2 7, .duplicateName) ∧
    0 < getLinkCount (after env h) 2 7 ∧
    (getLinkSources (after env h) 7).2 = .sources [1] :=
  ⟨⟨fun _ => 0, fun _ => true⟩, [.add 2 7, .add 1 7], by decide, by decide, by decide⟩

/-! ### C24 -/

/-- **C24 (partial), CanRemove.** For every history as in C23: `CanRemove(t)` is true
exactly when every component with a positive link count towards `t` accepts link
removal. Missing: sources with the same name. -/
theorem C24_canRemove_partial {env : Env} (hn : Named env) (h : List Op)
    (hb : ∀ s t, adds s t h < 4294967296) (t : Comp) :
    canRemove env (after env h) t = true ↔
      ∀ s, 0 < getLinkCount (after env h) s t → env.linking s = true := by
  obtain ⟨l, hl, _, hm⟩ := C23_sources_partial hn h hb t
  have e : (after env h).of t = l := by
    simp only [getLinkSources, Res.sources.injEq] at hl; exact hl
  unfold canRemove
  rw [e, List.all_eq_true]
  constructor
  · intro ha s hs; exact ha s ((hm s).2 hs)
  · intro ha s hs; exact ha s ((hm s).1 hs)

theorem removeLoop_stable (env : Env) (act : Comp → Reg → Reg) (t : Comp) (l : List Comp)
    (hact : ∀ c r, r.of t = l → (act c r).of t = l) :
    ∀ (fuel i : Nat) (r : Reg), r.of t = l → l.length ≤ i + fuel →
      (removeLoop env act t fuel i r).2 = (l.drop i).filter env.linking ∧
      (removeLoop env act t fuel i r).1.of t = l := by
  intro fuel
  induction fuel with
  | zero =>
    intro i r hr hlen
    rw [List.drop_eq_nil_of_le (by omega)]
    exact ⟨rfl, hr⟩
  | succ fuel ih =>
    intro i r hr hlen
    simp only [removeLoop, hr]
    cases hi : l[i]? with
    | none =>
      rw [List.getElem?_eq_none_iff] at hi
      obtain ⟨h1, h2⟩ := ih (i + 1) r hr (by omega)
      refine ⟨?_, h2⟩
      simp only; rw [h1, List.drop_eq_nil_of_le (by omega), List.drop_eq_nil_of_le (by omega)]
    | some c =>
      obtain ⟨hlt, he⟩ := List.getElem?_eq_some_iff.1 hi
      have hd : l.drop i = c :: l.drop (i + 1) := by
        rw [List.drop_eq_getElem_cons hlt, he]
      simp only
      split
      · rename_i hl
        obtain ⟨h1, h2⟩ := ih (i + 1) (act c r) (hact c r hr) (by omega)
        exact ⟨by simp only [h1, hd, List.filter_cons_of_pos hl], h2⟩
      · rename_i hl
        obtain ⟨h1, h2⟩ := ih (i + 1) r hr (by omega)
        exact ⟨by simp only [h1, hd, List.filter_cons_of_neg hl], h2⟩

/-- **C24 (partial), RemoveLinks.** If the sources do not change the registered links to
`t` while they are asked (the components of this library do not), every source of `t` that
accepts link removal is asked, in the order of registration, and no other component; by
C23 none is asked twice. Missing: sources that call `RemoveLink` when asked, as the
interface prescribes, see `C24_fails`; and nobody resets the counts otherwise, see
`C24_count_fails`. -/
theorem C24_removeLinks_partial {env : Env} (hn : Named env) (h : List Op)
    (hb : ∀ s t, adds s t h < 4294967296) (t : Comp) (act : Comp → Reg → Reg)
    (hact : ∀ c r, (act c r).of t = r.of t) :
    let asked := (removeLinks env act (after env h) t).2
    asked.Nodup ∧ ∀ s, s ∈ asked ↔
      (0 < getLinkCount (after env h) s t ∧ env.linking s = true) := by
  obtain ⟨l, hl, hnd, hm⟩ := C23_sources_partial hn h hb t
  have e : (after env h).of t = l := by
    simp only [getLinkSources, Res.sources.injEq] at hl; exact hl
  have := (removeLoop_stable env act t l (fun c r hr => by rw [hact, hr]) _ 0 (after env h) e
    (by rw [e]; omega : l.length ≤ 0 + ((after env h).of t).length)).1
  intro asked
  have ha : asked = l.filter env.linking := by
    show (removeLoop _ _ _ _ _ _).2 = _
    rw [this]; rfl
  rw [ha]
  refine ⟨hnd.filter _, ?_⟩
  intro s
  rw [List.mem_filter, hm]

example : (removeLinks ⟨id, fun c => c != 2⟩ (fun _ r => r)
    (after ⟨id, fun c => c != 2⟩ [.add 3 7, .add 2 7, .add 1 7, .add 1 7]) 7).2 = [1, 3] := by
  decide

/-- A source that drops its single link when asked: it calls `RemoveLink`. -/
def drops (t : Comp) : Comp → Reg → Reg := fun c r => (removeLink r c t).1

/-- **C24 fails** when sources call `RemoveLink` as they are asked to drop their links:
the second of three sources is never asked and keeps its link. -/
theorem C24_fails : ∃ (env : Env) (h : List Op), Named env ∧
    (∀ s, env.linking s = true) ∧
    (removeLinks env (drops 7) (after env h) 7).2 = [1, 3] ∧
    getLinkCount (removeLinks env (drops 7) (after env h) 7).1 2 7 = 1 :=
  ⟨⟨id, fun _ => true⟩, [.add 3 7, .add 2 7, .add 1 7], fun _ _ h => h, fun _ => rfl,
    by decide, by decide⟩

/-- **C24 fails** also when they do not: after `RemoveLinks` the registry still counts
every link, since only `RemoveLink` lowers the counts. -/
theorem C24_count_fails (env : Env) (r : Reg) (t s : Comp) :
    getLinkCount (removeLinks env (fun _ r => r) r t).1 s t = getLinkCount r s t := by
  have : ∀ (fuel i : Nat) (r : Reg), (removeLoop env (fun _ r => r) t fuel i r).1 = r := by
    intro fuel
    induction fuel with
    | zero => intro i r; rfl
    | succ fuel ih =>
      intro i r
      simp only [removeLoop]
      split
      · exact ih _ _
      · split
        · simp only [ih]
        · exact ih _ _
  unfold removeLinks; rw [this]

end Verif.Link
