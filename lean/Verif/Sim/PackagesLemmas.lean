import Verif.Sim.PackagesSpec
/-! Lemmas about the packages (src/xsmp_services.cpp:38-98). -/
namespace Verif.Sim.Packages

abbrev Tbl := Nat → List Pkg × List Item

/-- From package `p` to package `q` by packages whose sets hold `a` (xsmp_services.cpp:64-69). -/
inductive Chain (S : Nat → List Nat) (a : Nat) (p : Pkg) : Pkg → Prop
  | refl : a ∈ S p.id → Chain S a p p
  | step {r q : Pkg} : Chain S a p r → q ∈ r.deps → a ∈ S q.id → Chain S a p q

theorem Chain.mono {S S' : Nat → List Nat} {a : Nat} (h : ∀ i, a ∈ S i → a ∈ S' i) {p q : Pkg}
    (c : Chain S a p q) : Chain S' a p q := by
  induction c with
  | refl hp => exact .refl (h _ hp)
  | step _ hq ha ih => exact .step ih hq (h _ ha)

theorem Chain.cons {S : Nat → List Nat} {a : Nat} {p d q : Pkg} (hp : a ∈ S p.id)
    (hd : d ∈ p.deps) (c : Chain S a d q) : Chain S a p q := by
  induction c with
  | refl h => exact .step (.refl hp) hd h
  | step _ hq ha ih => exact .step ih hq ha

theorem Chain.head {S : Nat → List Nat} {a : Nat} {p q : Pkg} (c : Chain S a p q) :
    a ∈ S p.id := by
  induction c with
  | refl h => exact h
  | step _ _ _ ih => exact ih

theorem okAll_mem {tbl : Tbl} : ∀ {ds : List Pkg}, OkAll tbl ds → ∀ d ∈ ds, d.Ok tbl
  | [], _, _, h => by cases h
  | _ :: _, h, d, hd => by
    simp only [OkAll] at h
    rcases List.mem_cons.mp hd with e | hd
    · exact e ▸ h.1
    · exact okAll_mem h.2 d hd

theorem ok_tbl {tbl : Tbl} {p : Pkg} (h : p.Ok tbl) :
    (tbl p.id).1 = p.deps ∧ (tbl p.id).2 = p.items ∧ OkAll tbl p.deps := by
  cases p
  simp only [Pkg.Ok] at h
  simp [Pkg.id, Pkg.deps, Pkg.items, h.1, h.2]

theorem chain_ok {tbl : Tbl} {S : Nat → List Nat} {a : Nat} {p q : Pkg} (c : Chain S a p q)
    (h : p.Ok tbl) : q.Ok tbl := by
  induction c with
  | refl _ => exact h
  | step _ hq _ ih => exact okAll_mem (ok_tbl ih).2.2 _ hq

/-! ### Finalise -/

/-- The sets after a finalisation. -/
structure Shrunk (tbl : Tbl) (S S' : Nat → List Nat) : Prop where
  some : ∀ i, S' i = S i ∨ S' i = []
  down : ∀ i, S i ≠ [] → S' i = [] → ∀ d ∈ (tbl i).1, S' d.id = []

theorem Shrunk.rfl (tbl : Tbl) (S : Nat → List Nat) : Shrunk tbl S S :=
  ⟨fun _ => .inl (by trivial), fun _ h h' => absurd h' h⟩

theorem Shrunk.empty {tbl : Tbl} {S S' : Nat → List Nat} (h : Shrunk tbl S S') {i : Nat}
    (hi : S i = []) : S' i = [] := by
  rcases h.some i with e | e
  · rw [e, hi]
  · exact e

theorem Shrunk.trans {tbl : Tbl} {S S' S'' : Nat → List Nat} (h : Shrunk tbl S S')
    (h' : Shrunk tbl S' S'') : Shrunk tbl S S'' := by
  refine ⟨fun i => ?_, fun i hi hi'' d hd => ?_⟩
  · rcases h'.some i with e | e
    · rw [e]; exact h.some i
    · exact .inr e
  · by_cases e : S' i = []
    · exact h'.empty (h.down i hi e d hd)
    · exact h'.down i e hi'' d hd

mutual
theorem fin_sims (w : World) : (p : Pkg) → (fin w p).sims = w.sims
  | .mk i deps _ => by
    simp only [fin]
    split
    · rfl
    · rw [finAll_sims]; rfl
theorem finAll_sims (w : World) : (ps : List Pkg) → (finAll w ps).sims = w.sims
  | [] => rfl
  | p :: ps => by
    simp only [finAll]
    rw [fin_sims, finAll_sims]
end

mutual
theorem fin_shrunk {tbl : Tbl} : (p : Pkg) → p.Ok tbl → (w : World) →
    Shrunk tbl w.sets (fin w p).sets ∧ (fin w p).sets p.id = []
  | .mk i deps items, hp, w => by
    simp only [Pkg.Ok] at hp
    simp only [fin, Pkg.id]
    split
    · next h => exact ⟨.rfl _ _, h⟩
    · next h =>
      have hA := finAll_shrunk deps hp.2 (w.clear i)
      have hi : (w.clear i).sets i = [] := by simp [World.clear]
      refine ⟨⟨fun j => ?_, fun j hj hj' d hd => ?_⟩, hA.1.empty hi⟩
      · by_cases e : j = i
        · subst e; exact .inr (hA.1.empty hi)
        · have := hA.1.some j
          have hj : (w.clear i).sets j = w.sets j := by simp [World.clear, e]
          rwa [hj] at this
      · by_cases e : j = i
        · subst e
          rw [hp.1] at hd
          exact hA.2 d hd
        · refine hA.1.down j ?_ hj' d hd
          have : (w.clear i).sets j = w.sets j := by simp [World.clear, e]
          rwa [this]
theorem finAll_shrunk {tbl : Tbl} : (ps : List Pkg) → OkAll tbl ps → (w : World) →
    Shrunk tbl w.sets (finAll w ps).sets ∧ ∀ p ∈ ps, (finAll w ps).sets p.id = []
  | [], _, w => ⟨.rfl _ _, fun _ h => by cases h⟩
  | p :: ps, hp, w => by
    simp only [OkAll] at hp
    have h1 := finAll_shrunk ps hp.2 w
    have h2 := fin_shrunk p hp.1 (finAll w ps)
    simp only [finAll]
    refine ⟨h1.1.trans h2.1, fun q hq => ?_⟩
    rcases List.mem_cons.mp hq with e | hq
    · subst e; exact h2.2
    · exact h2.1.empty (h1.2 q hq)
end

theorem finLibs_sims (w : World) : (ps : List Pkg) → (finLibs w ps).sims = w.sims
  | [] => rfl
  | p :: ps => by
    simp only [finLibs]
    rw [fin_sims, finLibs_sims]

theorem finLibs_shrunk {tbl : Tbl} : (ps : List Pkg) → (∀ p ∈ ps, p.Ok tbl) → (w : World) →
    Shrunk tbl w.sets (finLibs w ps).sets ∧ ∀ p ∈ ps, (finLibs w ps).sets p.id = []
  | [], _, w => ⟨.rfl _ _, fun _ h => by cases h⟩
  | p :: ps, hp, w => by
    have h1 := finLibs_shrunk ps (fun q hq => hp q (List.mem_cons_of_mem _ hq)) w
    have h2 := fin_shrunk p (hp p (List.mem_cons_self ..)) (finLibs w ps)
    simp only [finLibs]
    refine ⟨h1.1.trans h2.1, fun q hq => ?_⟩
    rcases List.mem_cons.mp hq with e | hq
    · subst e; exact h2.2
    · exact h2.1.empty (h1.2 q hq)

/-- A chain is kept, or its end is cleared. -/
theorem Chain.shrunk {tbl : Tbl} {S S' : Nat → List Nat} {a : Nat} (h : Shrunk tbl S S')
    {p q : Pkg} (hp : p.Ok tbl) (c : Chain S a p q) : Chain S' a p q ∨ S' q.id = [] := by
  induction c with
  | refl hm =>
    rcases h.some p.id with e | e
    · exact .inl (.refl (e ▸ hm))
    · exact .inr e
  | @step r q c hq ha ih =>
    rcases h.some q.id with e | e
    · rcases ih with ih | ih
      · exact .inl (.step ih hq (e ▸ ha))
      · refine .inr (h.down r.id ?_ ih q ?_)
        · have : a ∈ S r.id := by
            cases c with
            | refl h => exact h
            | step _ _ h => exact h
          intro e; rw [e] at this; cases this
        · rw [(ok_tbl (chain_ok c hp)).1]; exact hq
    · exact .inr e

/-! ### Initialise -/

mutual
/-- The identities of a package and of those it uses (xsmp_services.cpp:64-69). -/
def Pkg.ids : Pkg → List Nat
  | .mk i deps _ => i :: idsOf deps
/-- (xsmp_services.cpp:64-69.) -/
def idsOf : List Pkg → List Nat
  | [] => []
  | p :: ps => p.ids ++ idsOf ps
end

mutual
theorem ids_sub {tbl : Tbl} : (p : Pkg) → p.Ok tbl → ∀ i ∈ p.ids,
    ∃ q : Pkg, q.id = i ∧ q.Ok tbl ∧ sizeOf q ≤ sizeOf p
  | .mk j deps items, hp, i, hi => by
    have hp' := hp
    simp only [Pkg.Ok] at hp'
    simp only [Pkg.ids, List.mem_cons] at hi
    rcases hi with e | hi
    · exact ⟨_, e.symm ▸ rfl, hp, Nat.le_refl _⟩
    · obtain ⟨q, h1, h2, h3⟩ := idsOf_sub deps hp'.2 i hi
      refine ⟨q, h1, h2, ?_⟩
      simp only [Pkg.mk.sizeOf_spec]
      omega
theorem idsOf_sub {tbl : Tbl} : (ps : List Pkg) → OkAll tbl ps → ∀ i ∈ idsOf ps,
    ∃ q : Pkg, q.id = i ∧ q.Ok tbl ∧ sizeOf q ≤ sizeOf ps
  | [], _, _, h => by simp [idsOf] at h
  | p :: ps, hp, i, hi => by
    simp only [OkAll] at hp
    simp only [idsOf, List.mem_append] at hi
    rcases hi with hi | hi
    · obtain ⟨q, h1, h2, h3⟩ := ids_sub p hp.1 i hi
      refine ⟨q, h1, h2, ?_⟩
      simp only [List.cons.sizeOf_spec]
      omega
    · obtain ⟨q, h1, h2, h3⟩ := idsOf_sub ps hp.2 i hi
      refine ⟨q, h1, h2, ?_⟩
      simp only [List.cons.sizeOf_spec]
      omega
end

/-- A package does not use itself. -/
theorem acyclic {tbl : Tbl} {i : Nat} {deps : List Pkg} {items : List Item}
    (h : (Pkg.mk i deps items).Ok tbl) : i ∉ idsOf deps := by
  intro hi
  simp only [Pkg.Ok] at h
  obtain ⟨q, h1, h2, h3⟩ := idsOf_sub deps h.2 i hi
  obtain ⟨j, d, it⟩ := q
  simp only [Pkg.id] at h1
  subst h1
  simp only [Pkg.Ok] at h2
  have := h2.1.symm.trans h.1
  simp only [Prod.mk.injEq] at this
  obtain ⟨rfl, rfl⟩ := this
  simp only [Pkg.mk.sizeOf_spec] at h3
  omega

/-- The sets tell what is registered with the simulator at `a`, but for the packages `P` being
initialised. -/
structure Exact (tbl : Tbl) (S : Nat → List Nat) (items : List Item) (a : Nat) (P : List Nat) :
    Prop where
  deps : ∀ i, i ∉ P → a ∈ S i → ∀ d ∈ (tbl i).1, a ∈ S d.id
  reg : ∀ i it, it ∈ (tbl i).2 → (it ∈ items ↔ a ∈ S i ∧ i ∉ P)

mutual
theorem exact_all {tbl : Tbl} {S : Nat → List Nat} {items : List Item} {a : Nat} {P : List Nat}
    (h : Exact tbl S items a P) : (p : Pkg) → p.Ok tbl → (∀ i ∈ p.ids, i ∉ P) → a ∈ S p.id →
    ∀ it ∈ p.all, it ∈ items
  | .mk i deps its, hp, hP, ha, it, hit => by
    simp only [Pkg.Ok] at hp
    simp only [Pkg.ids, List.mem_cons] at hP
    simp only [Pkg.id] at ha
    simp only [Pkg.all, List.mem_append] at hit
    rcases hit with hit | hit
    · refine exactOf_all h deps hp.2 (fun j hj => hP j (.inr hj)) ?_ it hit
      intro d hd
      exact h.deps i (hP i (.inl rfl)) ha d (by rw [hp.1]; exact hd)
    · exact (h.reg i it (by rw [hp.1]; exact hit)).mpr ⟨ha, hP i (.inl rfl)⟩
theorem exactOf_all {tbl : Tbl} {S : Nat → List Nat} {items : List Item} {a : Nat} {P : List Nat}
    (h : Exact tbl S items a P) : (ps : List Pkg) → OkAll tbl ps → (∀ i ∈ idsOf ps, i ∉ P) →
    (∀ d ∈ ps, a ∈ S d.id) → ∀ it ∈ allOf ps, it ∈ items
  | [], _, _, _, it, hit => by simp [allOf] at hit
  | p :: ps, hp, hP, ha, it, hit => by
    simp only [OkAll] at hp
    simp only [idsOf, List.mem_append] at hP
    simp only [allOf, List.mem_append] at hit
    rcases hit with hit | hit
    · exact exact_all h p hp.1 (fun j hj => hP j (.inl hj)) (ha p (List.mem_cons_self ..)) it hit
    · exact exactOf_all h ps hp.2 (fun j hj => hP j (.inr hj))
        (fun d hd => ha d (List.mem_cons_of_mem _ hd)) it hit
end

theorem setSim_self (w : World) (a : Nat) (s : Option Simr) : (w.setSim a s).sims a = s := by
  simp [World.setSim]

theorem setSim_ne (w : World) {a b : Nat} (s : Option Simr) (h : b ≠ a) :
    (w.setSim a s).sims b = w.sims b := by
  simp [World.setSim, h]

/-- What registering distinct new items does. -/
theorem registerAll_post (a : Nat) : (its : List Item) → (w : World) → (s : Simr) →
    w.sims a = some s → s.accepts = true → its.Nodup → (∀ it ∈ its, it ∉ s.items) →
    (registerAll w a its).2 = false ∧ (registerAll w a its).1.sets = w.sets ∧
    (∀ b, b ≠ a → (registerAll w a its).1.sims b = w.sims b) ∧
    (registerAll w a its).1.sims a = some { s with items := s.items ++ its }
  | [], w, s, hs, _, _, _ => by simp [registerAll, hs]
  | it :: its, w, s, hs, ho, hn, hf => by
    have hr : s.refuses it = false := by
      have := hf it (List.mem_cons_self ..)
      cases it <;> simp [Simr.refuses, this, ho]
    have hreg : register w a it =
        (w.setSim a (some { s with items := s.items ++ [it] }), false) := by
      simp [register, hs, hr]
    have hn' := List.nodup_cons.mp hn
    have ih := registerAll_post a its (w.setSim a (some { s with items := s.items ++ [it] }))
      { s with items := s.items ++ [it] } (setSim_self ..) ho hn'.2 (by
        intro x hx
        simp only [List.mem_append, List.mem_singleton, not_or]
        exact ⟨hf x (List.mem_cons_of_mem _ hx), fun e => hn'.1 (e ▸ hx)⟩)
    simp only [registerAll, hreg]
    refine ⟨ih.1, ih.2.1, fun b hb => ?_, ?_⟩
    · exact (ih.2.2.1 b hb).trans (setSim_ne _ _ hb)
    · exact ih.2.2.2.trans (by simp)

/-- What initialising the packages `roots` for the simulator `s` at `a` does. -/
structure Post (tbl : Tbl) (w : World) (a : Nat) (s : Simr) (P : List Nat) (r : World × Bool)
    (roots : List Pkg) : Prop where
  ok : r.2 = false
  root : ∀ p ∈ roots, a ∈ r.1.sets p.id
  grow : ∀ i b, b ∈ w.sets i → b ∈ r.1.sets i
  other : ∀ i b, b ≠ a → b ∈ r.1.sets i → b ∈ w.sets i
  chain : ∀ i, a ∈ r.1.sets i → a ∈ w.sets i ∨
    ∃ d ∈ roots, ∃ q : Pkg, q.id = i ∧ Chain r.1.sets a d q
  sims : ∀ b, b ≠ a → r.1.sims b = w.sims b
  mine : ∃ s', r.1.sims a = some s' ∧ s'.libs = s.libs ∧ s'.accepts = s.accepts ∧
    (∀ it, it ∈ s'.items ↔ it ∈ s.items ∨ it ∈ allOf roots) ∧ Exact tbl r.1.sets s'.items a P

theorem insert_mem (w : World) (i a j b : Nat) :
    b ∈ (w.insert i a).sets j ↔ (j = i ∧ b = a) ∨ b ∈ w.sets j := by
  simp only [World.insert]
  split
  · next e => subst e; simp
  · next e => simp [e]

mutual
theorem init_post {tbl : Tbl} (D : Distinct tbl) (a : Nat) : (p : Pkg) → p.Ok tbl →
    (P : List Nat) → (∀ i ∈ p.ids, i ∉ P) → (w : World) → (s : Simr) → w.sims a = some s →
    s.accepts = true → Exact tbl w.sets s.items a P → Post tbl w a s P (init w a p) [p]
  | .mk i deps its, hp, P, hP, w, s, hs, ho, hE => by
    have hac := acyclic hp
    have hpo := hp
    simp only [Pkg.Ok] at hp
    have hP' := hP
    simp only [Pkg.ids, List.mem_cons] at hP
    have hiP : i ∉ P := hP i (.inl rfl)
    by_cases hin : a ∈ w.sets i
    · have e : init w a (.mk i deps its) = (w, false) := by simp [init, hin]
      rw [e]
      refine ⟨rfl, ?_, fun _ _ h => h, fun _ _ _ h => h, fun _ h => .inl h, fun _ _ => rfl,
        s, hs, rfl, rfl, fun it => ⟨.inl, fun h => ?_⟩, hE⟩
      · intro p hm
        rw [List.mem_singleton] at hm
        subst hm; exact hin
      · rcases h with h | h
        · exact h
        · simp only [allOf, List.append_nil] at h
          exact exact_all hE _ hpo hP' hin it h
    · -- the packages used
      have hE1 : Exact tbl (w.insert i a).sets s.items a (i :: P) := by
        refine ⟨fun j hj ha d hd => ?_, fun j it hit => ?_⟩
        · simp only [List.mem_cons, not_or] at hj
          rw [insert_mem] at ha
          rcases ha with ⟨e, _⟩ | ha
          · exact absurd e hj.1
          · exact (insert_mem ..).mpr (.inr (hE.deps j hj.2 ha d hd))
        · rw [hE.reg j it hit, insert_mem]
          simp only [List.mem_cons, not_or]
          constructor
          · rintro ⟨h1, h2⟩
            exact ⟨.inr h1, fun e => hin (e ▸ h1), h2⟩
          · rintro ⟨h1 | h1, h2, h3⟩
            · exact absurd h1.1 h2
            · exact ⟨h1, h3⟩
      have hA := initAll_post D a deps hp.2 (i :: P) (by
          intro j hj
          simp only [List.mem_cons, not_or]
          exact ⟨fun e => hac (e ▸ hj), hP j (.inr hj)⟩) (w.insert i a) s hs ho hE1
      obtain ⟨s1, hs1, hl1, ho1, hi1, hE2⟩ := hA.mine
      -- its own registrations
      have hR := registerAll_post a its (initAll (w.insert i a) a deps).1 s1 hs1
        (ho1.trans ho) (by have := D.own i; rwa [hp.1] at this) (by
          intro it hit hc
          have := ((hE2.reg i it (by rw [hp.1]; exact hit)).mp hc).2
          exact this (List.mem_cons_self ..))
      have e : init w a (.mk i deps its) =
          registerAll (initAll (w.insert i a) a deps).1 a its := by
        simp [init, hin, hA.ok]
      rw [e]
      have hself : a ∈ (initAll (w.insert i a) a deps).1.sets i :=
        hA.grow i a ((insert_mem ..).mpr (.inl ⟨rfl, rfl⟩))
      refine ⟨hR.1, ?_, ?_, ?_, ?_, ?_, _, hR.2.2.2, hl1, ho1, ?_, ?_⟩
      · intro p hm
        rw [List.mem_singleton] at hm
        subst hm
        rw [hR.2.1]; exact hself
      · intro j b hb
        rw [hR.2.1]
        exact hA.grow j b ((insert_mem ..).mpr (.inr hb))
      · intro j b hb hm
        rw [hR.2.1] at hm
        rcases (insert_mem ..).mp (hA.other j b hb hm) with ⟨_, h⟩ | h
        · exact absurd h hb
        · exact h
      · intro j hm
        rw [hR.2.1] at hm ⊢
        rcases hA.chain j hm with h | ⟨d, hd, q, hq, c⟩
        · rcases (insert_mem ..).mp h with ⟨e, _⟩ | h
          · exact .inr ⟨.mk i deps its, List.mem_singleton.mpr rfl, .mk i deps its, e.symm, .refl hself⟩
          · exact .inl h
        · exact .inr ⟨_, List.mem_singleton.mpr rfl, q, hq, .cons hself hd c⟩
      · intro b hb
        exact (hR.2.2.1 b hb).trans (hA.sims b hb)
      · intro it
        simp only [List.mem_append, allOf, Pkg.all, List.append_nil, hi1, or_assoc]
      · rw [hR.2.1]
        refine ⟨fun j hj ha d hd => ?_, fun j it hit => ?_⟩
        · by_cases e : j = i
          · subst e
            rw [hp.1] at hd
            exact hA.root d hd
          · exact hE2.deps j (by simp [e, hj]) ha d hd
        · simp only [List.mem_append]
          by_cases e : j = i
          · subst e
            have : it ∈ its := by rw [hp.1] at hit; exact hit
            simp [this, hself, hiP]
          · have hnot : it ∉ its := fun h => e (D.apart j i it hit (by rw [hp.1]; exact h))
            rw [hE2.reg j it hit]
            simp [hnot, e]
theorem initAll_post {tbl : Tbl} (D : Distinct tbl) (a : Nat) : (ps : List Pkg) → OkAll tbl ps →
    (P : List Nat) → (∀ i ∈ idsOf ps, i ∉ P) → (w : World) → (s : Simr) → w.sims a = some s →
    s.accepts = true → Exact tbl w.sets s.items a P → Post tbl w a s P (initAll w a ps) ps
  | [], _, P, _, w, s, hs, _, hE => by
    simp only [initAll]
    exact ⟨rfl, fun _ h => (by cases h), fun _ _ h => h, fun _ _ _ h => h, fun _ h => .inl h,
      fun _ _ => rfl, s, hs, rfl, rfl, fun it => by simp [allOf], hE⟩
  | p :: ps, hp, P, hP, w, s, hs, ho, hE => by
    simp only [OkAll] at hp
    simp only [idsOf, List.mem_append] at hP
    have h1 := init_post D a p hp.1 P (fun j hj => hP j (.inl hj)) w s hs ho hE
    obtain ⟨s1, hs1, hl1, ho1, hi1, hE1⟩ := h1.mine
    have h2 := initAll_post D a ps hp.2 P (fun j hj => hP j (.inr hj)) _ s1 hs1 (ho1.trans ho) hE1
    obtain ⟨s2, hs2, hl2, ho2, hi2, hE2⟩ := h2.mine
    have e : initAll w a (p :: ps) = initAll (init w a p).1 a ps := by
      simp [initAll, h1.ok]
    rw [e]
    refine ⟨h2.ok, ?_, ?_, ?_, ?_, ?_, s2, hs2, hl2.trans hl1, ho2.trans ho1, ?_, hE2⟩
    · intro q hq
      rcases List.mem_cons.mp hq with e | hq
      · subst e
        exact h2.grow _ _ (h1.root _ (List.mem_singleton.mpr rfl))
      · exact h2.root q hq
    · exact fun i b hb => h2.grow i b (h1.grow i b hb)
    · exact fun i b hn hb => h1.other i b hn (h2.other i b hn hb)
    · intro i hi
      rcases h2.chain i hi with h | ⟨d, hd, q, hq, c⟩
      · rcases h1.chain i h with h | ⟨d, hd, q, hq, c⟩
        · exact .inl h
        · rw [List.mem_singleton] at hd
          subst hd
          exact .inr ⟨_, List.mem_cons_self .., q, hq, c.mono (fun j hj => h2.grow j a hj)⟩
      · exact .inr ⟨d, List.mem_cons_of_mem _ hd, q, hq, c⟩
    · exact fun b hb => (h2.sims b hb).trans (h1.sims b hb)
    · intro it
      rw [hi2, hi1]
      simp only [allOf, List.append_nil, List.mem_append, or_assoc]
end

/-! ### Runs -/

theorem run_append (w : World) : (h h' : List Op) → run w (h ++ h') = run (run w h) h'
  | [], _ => rfl
  | _ :: h, h' => run_append _ h h'

/-- What holds of a careful program. -/
structure Inv (tbl : Tbl) (h : List Op) (w : World) : Prop where
  alive : ∀ i a, a ∈ w.sets i → ∃ s, w.sims a = some s
  libs : ∀ a s, w.sims a = some s → ∀ p ∈ s.libs, p.Ok tbl
  root : ∀ a s i, w.sims a = some s → a ∈ w.sets i →
    ∃ p ∈ s.libs, ∃ q : Pkg, q.id = i ∧ Chain w.sets a p q
  exact : ∀ a s, w.sims a = some s → Fresh h a → Exact tbl w.sets s.items a []

theorem Careful.pre {tbl : Tbl} {h h' : List Op} (c : Careful tbl (h ++ h')) : Careful tbl h :=
  ⟨fun h1 a p h2 e => c.loads h1 a p (h2 ++ h') (by rw [e]; simp),
   fun a p hm => c.calls a p (List.mem_append_left _ hm),
   fun a it hm => c.adds a it (List.mem_append_left _ hm)⟩

/-- A simulator stays fresh only if nothing is destroyed. -/
theorem fresh_snoc {h : List Op} {o : Op} {a : Nat} (f : Fresh (h ++ [o]) a) :
    (o = .create a ∧ (run .start h).sims a = none) ∨ (Fresh h a ∧ ∀ b, o ≠ .destroy b) := by
  obtain ⟨h1, h2, e, hn, hd⟩ := f
  rcases List.eq_nil_or_concat h2 with e2 | ⟨h3, x, e2⟩
  · subst e2
    have := List.append_inj' e rfl
    obtain ⟨rfl, e⟩ := this
    exact .inl ⟨by simpa using e, hn⟩
  · rw [List.concat_eq_append] at e2
    subst e2
    have e' : h ++ [o] = (h1 ++ Op.create a :: h3) ++ [x] := by rw [e]; simp
    have := List.append_inj' e' rfl
    obtain ⟨rfl, e3⟩ := this
    have e3 : o = x := by simpa using e3
    subst e3
    refine .inr ⟨⟨h1, h3, rfl, hn, fun b hb => hd b (by simp [hb])⟩, fun b hb => hd b ?_⟩
    simp [hb]

/-- The sets do not change and the items and libraries of the simulators neither. -/
theorem Inv.same {tbl : Tbl} {h : List Op} {o : Op} {w w' : World} (I : Inv tbl h w)
    (hw : w = run .start h) (hS : w'.sets = w.sets)
    (hs : ∀ a, (∃ s, w.sims a = some s) → ∃ s, w'.sims a = some s)
    (hl : ∀ a s', w'.sims a = some s' → (∀ i, a ∉ w.sets i) ∧ s'.libs = [] ∧ s'.items = [] ∨
      ∃ s, w.sims a = some s ∧ s'.libs = s.libs ∧
        ∀ i it, it ∈ (tbl i).2 → (it ∈ s'.items ↔ it ∈ s.items))
    (hc : ∀ a, o = .create a → w.sims a = none → ∃ s', w'.sims a = some s' ∧ s'.items = []) :
    Inv tbl (h ++ [o]) w' := by
  refine ⟨?_, ?_, ?_, ?_⟩
  · intro i a ha
    rw [hS] at ha
    exact hs a (I.alive i a ha)
  · intro a s' hs' p hp
    rcases hl a s' hs' with ⟨_, e, _⟩ | ⟨s, e, e', _⟩
    · rw [e] at hp; cases hp
    · exact I.libs a s e p (e' ▸ hp)
  · intro a s' i hs' ha
    rw [hS] at ha ⊢
    rcases hl a s' hs' with ⟨e, _⟩ | ⟨s, e, e', _⟩
    · exact absurd ha (e i)
    · rw [e']; exact I.root a s i e ha
  · intro a s' hs' f
    rw [hS]
    rcases fresh_snoc f with ⟨e, hn⟩ | ⟨f, _⟩
    · rw [← hw] at hn
      have hno : ∀ i, a ∉ w.sets i := fun i hi => by
        obtain ⟨s, e⟩ := I.alive i a hi
        rw [hn] at e; cases e
      obtain ⟨s2, e2, e3⟩ := hc a e hn
      rw [hs'] at e2
      cases e2
      refine ⟨fun i _ hi => absurd hi (hno i), fun i it _ => ?_⟩
      rw [e3]
      simp [hno i]
    · rcases hl a s' hs' with ⟨hno, _, e3⟩ | ⟨s, e, _, h3⟩
      · refine ⟨fun i _ hi => absurd hi (hno i), fun i it _ => ?_⟩
        rw [e3]
        simp [hno i]
      · have := I.exact a s e f
        refine ⟨this.deps, fun i it hit => ?_⟩
        rw [h3 i it hit]
        exact this.reg i it hit

theorem inv_start (tbl : Tbl) : Inv tbl [] .start := by
  refine ⟨fun i a h => ?_, fun a s h => ?_, fun a s i h => ?_, fun a s h => ?_⟩ <;>
    simp [World.start] at h

/-- What a load does to a world in which the simulator is fresh. -/
theorem load_post {tbl : Tbl} (D : Distinct tbl) {w : World} {a : Nat} {p : Pkg} {s : Simr}
    (hp : p.Ok tbl) (hs : w.sims a = some s) (ho : s.accepts = true)
    (hE : Exact tbl w.sets s.items a []) :
    ∃ s', (load w a p).2 = false ∧ (load w a p).1.sets = (init w a p).1.sets ∧
      (load w a p).1.sims a = some s' ∧ s'.libs = s.libs ++ [p] ∧ s'.accepts = s.accepts ∧
      (∀ it, it ∈ s'.items ↔ it ∈ s.items ∨ it ∈ p.all) ∧
      Exact tbl (init w a p).1.sets s'.items a [] ∧
      ∀ b, b ≠ a → (load w a p).1.sims b = w.sims b := by
  have P := init_post D a p hp [] (fun _ _ h => by cases h) w s hs ho hE
  obtain ⟨s1, hs1, hl, hac, hi, hE1⟩ := P.mine
  have e : load w a p =
      ((init w a p).1.setSim a (some { s1 with libs := s1.libs ++ [p] }), false) := by
    simp [load, P.ok, hs1]
  rw [e]
  refine ⟨_, rfl, rfl, setSim_self .., by rw [← hl], hac, ?_, hE1, ?_⟩
  · intro it
    rw [hi]
    simp [allOf]
  · intro b hb
    exact (setSim_ne _ _ hb).trans (P.sims b hb)

theorem inv_step {tbl : Tbl} (D : Distinct tbl) {h : List Op} {o : Op}
    (c : Careful tbl (h ++ [o])) (I : Inv tbl h (run .start h)) :
    Inv tbl (h ++ [o]) (step (run .start h) o).1 := by
  generalize hw : run .start h = w at I
  cases o with
  | create a =>
    cases hs : w.sims a with
    | some s =>
      have e : step w (.create a) = (w, false) := by simp [step, hs]
      rw [e]
      refine I.same hw.symm rfl (fun _ h => h) (fun b s' hb => .inr ⟨s', hb, rfl, fun _ _ _ => .rfl⟩)
        (fun b e hn => ?_)
      cases e
      rw [hs] at hn; cases hn
    | none =>
      have e : step w (.create a) =
          (w.setSim a (some { items := [], libs := [], accepts := true }), false) := by
        simp [step, hs]
      rw [e]
      refine I.same hw.symm rfl (fun b hb => ?_) (fun b s' hb => ?_) (fun b e hn => ?_)
      · by_cases e : b = a
        · subst e; exact ⟨_, setSim_self ..⟩
        · rw [setSim_ne _ _ e]; exact hb
      · by_cases e : b = a
        · subst e
          rw [setSim_self] at hb
          cases hb
          refine .inl ⟨fun i hi => ?_, rfl, rfl⟩
          obtain ⟨s, e⟩ := I.alive i _ hi
          rw [hs] at e; cases e
        · rw [setSim_ne _ _ e] at hb
          exact .inr ⟨s', hb, rfl, fun _ _ _ => .rfl⟩
      · cases e
        exact ⟨_, setSim_self .., rfl⟩
  | load a p =>
    obtain ⟨hp, hf, s, hs, ho⟩ := c.loads h a p [] rfl
    rw [hw] at hs
    have hE := I.exact a s hs hf
    obtain ⟨s', h1, h2, h3, h4, h5, h6, h7, h8⟩ := load_post D hp hs ho hE
    have P := init_post D a p hp [] (fun _ _ h => by cases h) w s hs ho hE
    simp only [step]
    refine ⟨?_, ?_, ?_, ?_⟩
    · intro i b hb
      by_cases e : b = a
      · subst e; exact ⟨s', h3⟩
      · rw [h2] at hb
        rw [h8 b e]
        exact I.alive i b (P.other i b e hb)
    · intro b sb hb q hq
      by_cases e : b = a
      · subst e
        rw [h3] at hb
        cases hb
        rw [h4] at hq
        rcases List.mem_append.mp hq with hq | hq
        · exact I.libs _ s hs q hq
        · rw [List.mem_singleton] at hq; subst hq; exact hp
      · rw [h8 b e] at hb
        exact I.libs b sb hb q hq
    · intro b sb i hb hm
      rw [h2] at hm ⊢
      by_cases e : b = a
      · subst e
        rw [h3] at hb
        cases hb
        rw [h4]
        rcases P.chain i hm with hm | ⟨d, hd, q, hq, ch⟩
        · obtain ⟨r, hr, q, hq, ch⟩ := I.root _ s i hs hm
          exact ⟨r, List.mem_append_left _ hr, q, hq, ch.mono (fun j hj => P.grow j _ hj)⟩
        · rw [List.mem_singleton] at hd
          subst hd
          exact ⟨_, List.mem_append_right _ (List.mem_singleton.mpr rfl), q, hq, ch⟩
      · rw [h8 b e] at hb
        obtain ⟨r, hr, q, hq, ch⟩ := I.root b sb i hb (P.other i b e hm)
        exact ⟨r, hr, q, hq, ch.mono (fun j hj => P.grow j _ hj)⟩
    · intro b sb hb f
      rcases fresh_snoc f with ⟨e, _⟩ | ⟨f, _⟩
      · cases e
      rw [h2]
      by_cases e : b = a
      · subst e
        rw [h3] at hb
        cases hb
        exact h7
      · rw [h8 b e] at hb
        have := I.exact b sb hb f
        refine ⟨fun i hi hm d hd => ?_, fun i it hit => ?_⟩
        · exact P.grow _ _ (this.deps i hi (P.other i b e hm) d hd)
        · rw [this.reg i it hit]
          exact ⟨fun h => ⟨P.grow i b h.1, h.2⟩, fun h => ⟨P.other i b e h.1, h.2⟩⟩
  | destroy a =>
    simp only [step]
    cases hs : w.sims a with
    | none =>
      have e : destroy w a = w := by simp [destroy, hs]
      rw [e]
      refine I.same hw.symm rfl (fun _ h => h) (fun b s' hb => .inr ⟨s', hb, rfl, fun _ _ _ => .rfl⟩)
        (fun b e _ => by cases e)
    | some s =>
      have e : destroy w a = (finLibs w s.libs).setSim a none := by simp [destroy, hs]
      rw [e]
      have F := finLibs_shrunk s.libs (I.libs a s hs) w
      have hsub : ∀ i b, b ∈ (finLibs w s.libs).sets i → b ∈ w.sets i := by
        intro i b hb
        rcases F.1.some i with e | e
        · rwa [e] at hb
        · rw [e] at hb; cases hb
      have hgone : ∀ i, a ∉ (finLibs w s.libs).sets i := by
        intro i hi
        obtain ⟨p, hp, q, hq, ch⟩ := I.root a s i hs (hsub i a hi)
        rcases ch.shrunk F.1 (I.libs a s hs p hp) with ch | e
        · have := ch.head
          rw [F.2 p hp] at this
          cases this
        · rw [hq] at e
          rw [e] at hi
          cases hi
      have hsims : ∀ b, b ≠ a → ((finLibs w s.libs).setSim a none).sims b = w.sims b := by
        intro b hb
        rw [setSim_ne _ _ hb, finLibs_sims]
      have hsets : ((finLibs w s.libs).setSim a none).sets = (finLibs w s.libs).sets := rfl
      refine ⟨?_, ?_, ?_, ?_⟩
      · intro i b hb
        rw [hsets] at hb
        have hne : b ≠ a := fun e => hgone i (e ▸ hb)
        rw [hsims b hne]
        exact I.alive i b (hsub i b hb)
      · intro b sb hb p hp
        have hne : b ≠ a := fun e => by subst e; rw [setSim_self] at hb; cases hb
        rw [hsims b hne] at hb
        exact I.libs b sb hb p hp
      · intro b sb i hb hm
        have hne : b ≠ a := fun e => by subst e; rw [setSim_self] at hb; cases hb
        rw [hsims b hne] at hb
        rw [hsets] at hm ⊢
        obtain ⟨p, hp, q, hq, ch⟩ := I.root b sb i hb (hsub i b hm)
        rcases ch.shrunk F.1 (I.libs b sb hb p hp) with ch | e
        · exact ⟨p, hp, q, hq, ch⟩
        · rw [hq] at e
          rw [e] at hm
          cases hm
      · intro b sb hb f
        rcases fresh_snoc f with ⟨e, _⟩ | ⟨_, f⟩
        · cases e
        · exact absurd rfl (f a)
  | call a p => exact absurd (List.mem_append_right h (List.mem_singleton.mpr rfl)) (c.calls a p)
  | add a it =>
    have hit := c.adds a it (List.mem_append_right h (List.mem_singleton.mpr rfl))
    simp only [step]
    cases hs : w.sims a with
    | none =>
      have e : register w a it = (w, true) := by simp [register, hs]
      rw [e]
      exact I.same hw.symm rfl (fun _ h => h) (fun b s' hb => .inr ⟨s', hb, rfl, fun _ _ _ => .rfl⟩)
        (fun b e _ => by cases e)
    | some s =>
      by_cases hr : s.refuses it = true
      · have e : register w a it = (w, true) := by simp [register, hs, hr]
        rw [e]
        exact I.same hw.symm rfl (fun _ h => h)
          (fun b s' hb => .inr ⟨s', hb, rfl, fun _ _ _ => .rfl⟩) (fun b e _ => by cases e)
      · have e : register w a it =
            (w.setSim a (some { s with items := s.items ++ [it] }), false) := by
          simp [register, hs, hr]
        rw [e]
        refine I.same hw.symm rfl (fun b hb => ?_) (fun b s' hb => ?_) (fun b e _ => by cases e)
        · by_cases e : b = a
          · subst e; exact ⟨_, setSim_self ..⟩
          · rw [setSim_ne _ _ e]; exact hb
        · by_cases e : b = a
          · subst e
            rw [setSim_self] at hb
            cases hb
            refine .inr ⟨s, hs, rfl, fun i x hx => ?_⟩
            simp only [List.mem_append, List.mem_singleton]
            exact ⟨fun h => h.elim id (fun e => absurd (e ▸ hx) (hit i)), .inl⟩
          · rw [setSim_ne _ _ e] at hb
            exact .inr ⟨s', hb, rfl, fun _ _ _ => .rfl⟩
  | state a x =>
    simp only [step]
    cases hs : w.sims a with
    | none =>
      exact I.same hw.symm rfl (fun _ h => h) (fun b s' hb => .inr ⟨s', hb, rfl, fun _ _ _ => .rfl⟩)
        (fun b e _ => by cases e)
    | some s =>
      refine I.same hw.symm rfl (fun b hb => ?_) (fun b s' hb => ?_) (fun b e _ => by cases e)
      · by_cases e : b = a
        · subst e; exact ⟨_, setSim_self ..⟩
        · rw [setSim_ne _ _ e]; exact hb
      · by_cases e : b = a
        · subst e
          rw [setSim_self] at hb
          cases hb
          exact .inr ⟨s, hs, rfl, fun i x hx => .rfl⟩
        · rw [setSim_ne _ _ e] at hb
          exact .inr ⟨s', hb, rfl, fun _ _ _ => .rfl⟩

theorem inv_run {tbl : Tbl} (D : Distinct tbl) : (n : Nat) → (h : List Op) → h.length = n →
    Careful tbl h → Inv tbl h (run .start h)
  | 0, h, hn, _ => by
    have : h = [] := List.length_eq_zero_iff.mp hn
    subst this
    exact inv_start tbl
  | n + 1, h, hn, c => by
    rcases List.eq_nil_or_concat h with e | ⟨g, o, e⟩
    · subst e; simp at hn
    · rw [List.concat_eq_append] at e
      subst e
      have I := inv_run D n g (by simpa using hn) c.pre
      have := inv_step D c I
      rw [run_append]
      exact this

/-! ### Every program -/

/-- No simulator holds an item twice. -/
def Once (w : World) : Prop := ∀ a s, w.sims a = some s → s.items.Nodup

theorem once_setSim {w : World} (h : Once w) (a : Nat) (s : Option Simr)
    (hs : ∀ s', s = some s' → s'.items.Nodup) : Once (w.setSim a s) := by
  intro b sb hb
  by_cases e : b = a
  · subst e
    rw [setSim_self] at hb
    exact hs sb hb
  · rw [setSim_ne _ _ e] at hb
    exact h b sb hb

theorem once_register {w : World} (h : Once w) (a : Nat) (it : Item) :
    Once (register w a it).1 := by
  unfold register
  cases hs : w.sims a with
  | none => exact h
  | some s =>
    dsimp only
    by_cases hr : s.refuses it = true
    · rw [if_pos hr]; exact h
    · rw [if_neg hr]
      refine once_setSim h a _ (fun s' e => ?_)
      cases e
      have hn : it ∉ s.items := by
        intro hm
        apply hr
        cases it <;> simp [Simr.refuses, hm]
      have := h a s hs
      simp only [List.nodup_append]
      refine ⟨this, by simp, fun x hx y hy => ?_⟩
      rw [List.mem_singleton] at hy
      exact fun e => hn (hy ▸ e ▸ hx)

theorem once_registerAll (a : Nat) : (its : List Item) → {w : World} → Once w →
    Once (registerAll w a its).1
  | [], _, h => h
  | it :: its, w, h => by
    simp only [registerAll]
    split
    · exact once_register h a it
    · exact once_registerAll a its (once_register h a it)

theorem once_insert {w : World} (h : Once w) (i a : Nat) : Once (w.insert i a) := h

mutual
theorem once_init (a : Nat) : (p : Pkg) → {w : World} → Once w → Once (init w a p).1
  | .mk i deps its, w, h => by
    simp only [init]
    split
    · exact h
    · split
      · exact once_initAll a deps (once_insert h i a)
      · exact once_registerAll a its (once_initAll a deps (once_insert h i a))
theorem once_initAll (a : Nat) : (ps : List Pkg) → {w : World} → Once w → Once (initAll w a ps).1
  | [], _, h => h
  | p :: ps, w, h => by
    simp only [initAll]
    split
    · exact once_init a p h
    · exact once_initAll a ps (once_init a p h)
end

theorem once_step {w : World} (h : Once w) (o : Op) : Once (step w o).1 := by
  cases o with
  | create a =>
    simp only [step]
    split
    · exact once_setSim h a _ (fun s e => by cases e; simp)
    · exact h
  | load a p =>
    simp only [step, load]
    split
    · exact once_init a p h
    · split
      · exact once_init a p h
      · next s hs =>
        exact once_setSim (once_init a p h) a _ (fun s' e => by cases e; exact once_init a p h a s hs)
  | destroy a =>
    simp only [step, destroy]
    split
    · exact h
    · refine once_setSim ?_ a _ (fun s e => by cases e)
      intro b sb hb
      rw [finLibs_sims] at hb
      exact h b sb hb
  | call a p => exact once_init a p h
  | add a it => exact once_register h a it
  | state a x =>
    simp only [step]
    split
    · exact h
    · next s hs => exact once_setSim h a _ (fun s' e => by cases e; exact h a s hs)

theorem once_run : (h : List Op) → {w : World} → Once w → Once (run w h)
  | [], _, h => h
  | o :: os, _, h => once_run os (once_step h o)

theorem registerAll_sets (a : Nat) : (its : List Item) → (w : World) →
    (registerAll w a its).1.sets = w.sets
  | [], _ => rfl
  | it :: its, w => by
    have e : (register w a it).1.sets = w.sets := by
      unfold register
      split
      · rfl
      · split <;> rfl
    simp only [registerAll]
    split
    · exact e
    · rw [registerAll_sets a its, e]

mutual
theorem init_grow (a : Nat) : (p : Pkg) → (w : World) →
    (∀ i b, b ∈ w.sets i → b ∈ (init w a p).1.sets i) ∧ a ∈ (init w a p).1.sets p.id
  | .mk i deps its, w => by
    simp only [init, Pkg.id]
    split
    · next h => exact ⟨fun _ _ h => h, h⟩
    · have hA := initAll_grow a deps (w.insert i a)
      have h1 : ∀ j b, b ∈ w.sets j → b ∈ (initAll (w.insert i a) a deps).1.sets j :=
        fun j b hb => hA j b ((insert_mem ..).mpr (.inr hb))
      have h2 := hA i a ((insert_mem ..).mpr (.inl ⟨rfl, rfl⟩))
      split
      · exact ⟨h1, h2⟩
      · rw [registerAll_sets]; exact ⟨h1, h2⟩
theorem initAll_grow (a : Nat) : (ps : List Pkg) → (w : World) →
    ∀ i b, b ∈ w.sets i → b ∈ (initAll w a ps).1.sets i
  | [], _ => fun _ _ h => h
  | p :: ps, w => by
    intro i b hb
    simp only [initAll]
    split
    · exact (init_grow a p w).1 i b hb
    · exact initAll_grow a ps _ i b ((init_grow a p w).1 i b hb)
end

end Verif.Sim.Packages
