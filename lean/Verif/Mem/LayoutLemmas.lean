import Verif.Mem.LayoutSpec
import Verif.Path.Props

/-! Lemmas about `create` and `find`. -/
namespace Verif.Mem
open Verif.Any (Kind)
open Verif.Path (Str checkName Grammar checkName_iff)
open Verif.Pub (Uuid primUuid voidUuid)

theorem mapE_ok {α β : Type} {f : α → Except Err β} : ∀ {xs : List α} {ys : List β},
    mapE f xs = .ok ys → ys.length = xs.length ∧ ∀ (i : Nat) x, xs[i]? = some x → ∃ y, ys[i]? = some y ∧ f x = .ok y
  | [], ys, h => by
    cases h
    exact ⟨rfl, by simp⟩
  | x :: xs, ys, h => by
    unfold mapE at h
    cases hx : f x with
    | error e => rw [hx] at h; cases h
    | ok y =>
      rw [hx] at h
      cases hr : mapE f xs with
      | error e => simp only [hr] at h; cases h
      | ok zs =>
        simp only [hr] at h
        cases h
        obtain ⟨h1, h2⟩ := mapE_ok hr
        refine ⟨by simp [h1], ?_⟩
        intro i x' hi
        cases i with
        | zero => simp at hi; subst hi; exact ⟨y, by simp, hx⟩
        | succ i => simpa using h2 i x' (by simpa using hi)

theorem createFields_ok {c : FDef → Except Err PTree} : ∀ {fds : List FDef} {done : List Str}
    {ts : List PTree}, createFields c done fds = .ok ts →
    (fds.map (·.name)).Nodup ∧ (∀ fd ∈ fds, fd.name ∉ done) ∧
    (∀ s, (∀ t, lookup s (fds.map (·.name)) ts = some t → ∃ fd ∈ fds, fd.name = s ∧ c fd = .ok t) ∧
      (∀ fd ∈ fds, fd.name = s → ∃ t, lookup s (fds.map (·.name)) ts = some t ∧ c fd = .ok t))
  | [], done, ts, h => by
    cases h
    refine ⟨List.nodup_nil, by simp, fun s => ⟨?_, by simp⟩⟩
    intro t h; simp [lookup] at h
  | fd :: fds, done, ts, h => by
    unfold createFields at h
    cases hx : c fd with
    | error e => rw [hx] at h; cases h
    | ok t =>
      simp only [hx] at h
      by_cases hd : fd.name ∈ done
      · rw [if_pos hd] at h; cases h
      · rw [if_neg hd] at h
        cases hr : createFields c (fd.name :: done) fds with
        | error e => simp only [hr] at h; cases h
        | ok zs =>
          simp only [hr] at h
          cases h
          obtain ⟨h1, h2, h3⟩ := createFields_ok hr
          refine ⟨?_, ?_, ?_⟩
          · simp only [List.map_cons, List.nodup_cons]
            refine ⟨?_, h1⟩
            intro hm
            obtain ⟨fd', hm', he⟩ := List.mem_map.1 hm
            exact h2 fd' hm' (by rw [he]; exact List.mem_cons_self)
          · intro fd' hm
            rcases List.mem_cons.1 hm with rfl | hm
            · exact hd
            · intro hmem; exact h2 fd' hm (List.mem_cons_of_mem _ hmem)
          · intro s
            constructor
            · intro t' hl
              simp only [List.map_cons, lookup] at hl
              by_cases he : fd.name = s
              · rw [if_pos he] at hl; cases hl
                exact ⟨fd, List.mem_cons_self, he, hx⟩
              · rw [if_neg he] at hl
                obtain ⟨fd', hm, h4⟩ := (h3 s).1 t' hl
                exact ⟨fd', List.mem_cons_of_mem _ hm, h4⟩
            · intro fd' hm he
              simp only [List.map_cons, lookup]
              rcases List.mem_cons.1 hm with rfl | hm
              · rw [if_pos he]; exact ⟨t, rfl, hx⟩
              · by_cases he2 : fd.name = s
                · exact absurd (show fd'.name ∈ fd.name :: done by rw [he, he2]; exact List.mem_cons_self)
                    (h2 fd' hm)
                · rw [if_neg he2]; exact (h3 s).2 fd' hm he

/-- What a successful `create` returns. -/
theorem create_cases {T : Types} {n : Nat} {name : Option Str} {u : Uuid} {a : Int} {fl : Flags}
    {t : PTree} (h : create T n name u a fl = .ok t) : ∃ m, n = m + 1 ∧ (
    (∃ l, T u = some (.simple l) ∧ l.kind ≠ .None ∧ t = .simple l a fl) ∨
    (∃ item isz count s l, T u = some (.array item isz count s) ∧ T item = some (.simple l) ∧
      l.kind ≠ .None ∧ t = .sarray l a isz count fl) ∨
    (∃ item isz count s ts, T u = some (.array item isz count s) ∧
      mapE (fun (i : Nat) => create T m (some (itemName i)) item (a + i * isz) fl) (List.range count) = .ok ts ∧
      t = .array ts fl) ∨
    (∃ fds ts, T u = some (.struct fds) ∧
      createFields (fun fd => create T m (some fd.name) fd.uuid (a + fd.offset)
        ⟨fd.flags.view, fd.flags.state, fd.flags.input || fl.input, fd.flags.output || fl.output⟩) [] fds
        = .ok ts ∧ t = .struct (fds.map (·.name)) ts fl)) := by
  cases n with
  | zero => cases h
  | succ m =>
    refine ⟨m, rfl, ?_⟩
    unfold create at h
    cases hT : T u with
    | none => rw [hT] at h; cases h
    | some d =>
      cases d with
      | simple l =>
        simp only [hT] at h
        by_cases hk : l.kind = .None
        · rw [if_pos hk] at h; cases h
        · rw [if_neg hk] at h
          cases hc : checkName name with
          | invalidObjectName => simp only [hc] at h; cases h
          | ok s =>
            simp only [hc] at h
            split at h
            · cases h
            · cases h; exact .inl ⟨l, rfl, hk, rfl⟩
      | array item isz count s =>
        simp only [hT] at h
        cases hc : checkName name with
        | invalidObjectName => simp only [hc] at h; cases h
        | ok _ =>
          simp only [hc] at h
          split at h
          · cases h
          · cases hs : simpleItem T s item with
            | some l =>
              simp only [hs] at h
              cases h
              unfold simpleItem at hs
              cases s with
              | false => cases hs
              | true =>
                cases hi : T item with
                | none => simp only [hi] at hs; cases hs
                | some d =>
                  cases d with
                  | simple l' =>
                    simp only [hi] at hs
                    split at hs
                    · cases hs
                    · rename_i hk; cases hs
                      exact .inr (.inl ⟨item, isz, count, true, l, rfl, hi, hk, rfl⟩)
                  | array => simp only [hi] at hs; cases hs
                  | struct => simp only [hi] at hs; cases hs
            | none =>
              simp only [hs] at h
              split at h
              · cases h
              · rename_i ts hm
                cases h
                exact .inr (.inr (.inl ⟨item, isz, count, s, ts, rfl, hm, rfl⟩))
      | struct fds =>
        simp only [hT] at h
        cases hc : checkName name with
        | invalidObjectName => simp only [hc] at h; cases h
        | ok _ =>
          simp only [hc] at h
          split at h
          · cases h
          · rename_i ts hm
            cases h
            exact .inr (.inr (.inr ⟨fds, ts, rfl, hm, rfl⟩))

theorem names_inj : ∀ {fds : List FDef}, (fds.map (·.name)).Nodup → ∀ {x y : FDef}, x ∈ fds → y ∈ fds →
    y.name = x.name → x = y
  | [], _, _, _, h, _, _ => by cases h
  | z :: fds, hn, x, y, hx, hy, he => by
    simp only [List.map_cons, List.nodup_cons] at hn
    rcases List.mem_cons.1 hx with rfl | hx'
    · rcases List.mem_cons.1 hy with rfl | hy'
      · rfl
      · exact absurd (List.mem_map.2 ⟨y, hy', he⟩) hn.1
    · rcases List.mem_cons.1 hy with rfl | hy'
      · exact absurd (List.mem_map.2 ⟨x, hx', he.symm⟩) hn.1
      · exact names_inj hn.2 hx' hy' he

theorem annotated_field {T : Types} {u : Uuid} {fds : List FDef} (hT : T u = some (.struct fds))
    {s : Str} {p : List Step} {fl fl' : Flags} (h : Annotated T u fl (.field s :: p) fl') :
    ∃ fd ∈ fds, fd.name = s ∧ Annotated T fd.uuid ⟨fd.flags.view, fd.flags.state,
      fd.flags.input || fl.input, fd.flags.output || fl.output⟩ p fl' := by
  generalize hq : Step.field s :: p = q at h
  cases h with
  | here => cases hq
  | item => cases hq
  | field h hf hp =>
    rw [hT] at h; cases h
    cases hq
    exact ⟨_, hf, rfl, hp⟩

theorem find_iff {T : Types} : ∀ (p : List Step) {n : Nat} {name : Option Str} {u : Uuid} {a : Int}
    {fl : Flags} {t : PTree}, create T n name u a fl = .ok t → ∀ l a' fl',
    (t.find p = some (l, a', fl') ↔ ∃ o, Part T u p l o ∧ a' = a + o ∧ Annotated T u fl p fl') := by
  intro p
  induction p with
  | nil =>
    intro n name u a fl t h l a' fl'
    obtain ⟨m, rfl, ⟨l0, hT, hk, rfl⟩ | ⟨item, isz, count, s, l0, hT, hi, hk, rfl⟩ |
      ⟨item, isz, count, s, ts, hT, hm, rfl⟩ | ⟨fds, ts, hT, hm, rfl⟩⟩ := create_cases h
    · simp only [PTree.find, Option.some.injEq, Prod.mk.injEq]
      constructor
      · rintro ⟨rfl, rfl, rfl⟩
        exact ⟨0, .simple hT hk, by omega, .here⟩
      · rintro ⟨o, hp, rfl, ha⟩
        cases hp with
        | simple h1 h2 =>
          rw [hT] at h1; cases h1
          cases ha
          exact ⟨rfl, by omega, rfl⟩
    all_goals
      constructor
      · intro h; simp [PTree.find] at h
      · rintro ⟨o, hp, -, -⟩
        cases hp with
        | simple h1 h2 => rw [hT] at h1; cases h1
  | cons st p ih =>
    intro n name u a fl t h l a' fl'
    obtain ⟨m, rfl, ⟨l0, hT, hk, rfl⟩ | ⟨item, isz, count, s, l0, hT, hi, hk, rfl⟩ |
      ⟨item, isz, count, s, ts, hT, hm, rfl⟩ | ⟨fds, ts, hT, hm, rfl⟩⟩ := create_cases h
    · constructor
      · intro h; cases st <;> simp [PTree.find] at h
      · rintro ⟨o, hp, -, -⟩
        cases hp with
        | item h1 => rw [hT] at h1; cases h1
        | field h1 => rw [hT] at h1; cases h1
    · constructor
      · intro h
        cases st with
        | field => cases p <;> simp [PTree.find] at h
        | item i =>
          cases p with
          | cons => simp [PTree.find] at h
          | nil =>
            simp only [PTree.find] at h
            split at h
            · rename_i hlt
              cases h
              exact ⟨i * isz + 0, .item hT hlt (.simple hi hk), by omega, .item hT .here⟩
            · cases h
      · rintro ⟨o, hp, rfl, ha⟩
        cases hp with
        | item h1 hlt hp =>
          rw [hT] at h1; cases h1
          cases hp with
          | simple h2 h3 =>
            rw [hi] at h2; cases h2
            cases ha with
            | item h4 h5 =>
              rw [hT] at h4; cases h4
              cases h5
              simp only [PTree.find, if_pos hlt, Option.some.injEq, Prod.mk.injEq, true_and, and_true]
              omega
          | item h2 => rw [hi] at h2; cases h2
          | field h2 => rw [hi] at h2; cases h2
        | field h1 => rw [hT] at h1; cases h1
    · obtain ⟨hlen, hget⟩ := mapE_ok hm
      rw [List.length_range] at hlen
      constructor
      · intro h
        cases st with
        | field => cases p <;> simp [PTree.find] at h
        | item i =>
          simp only [PTree.find] at h
          cases hti : ts[i]? with
          | none => simp only [hti] at h; cases h
          | some t =>
            simp only [hti] at h
            have hlt : i < count := by
              have := (List.getElem?_eq_some_iff.1 hti).1
              omega
            obtain ⟨y, hy, hc⟩ := hget i i (by simp [hlt])
            rw [hti] at hy; cases hy
            obtain ⟨o, ho, rfl, ha⟩ := (ih hc l a' fl').1 h
            exact ⟨i * isz + o, .item hT hlt ho, by omega, .item hT ha⟩
      · rintro ⟨o, hp, rfl, ha⟩
        cases hp with
        | item h1 hlt hp =>
          rename_i i o
          rw [hT] at h1; cases h1
          cases ha with
          | item h4 h5 =>
            rw [hT] at h4; cases h4
            obtain ⟨y, hy, hc⟩ := hget i i (by simp [hlt])
            simp only [PTree.find, hy]
            exact (ih hc l _ fl').2 ⟨o, hp, by omega, h5⟩
        | field h1 => rw [hT] at h1; cases h1
    · obtain ⟨hnd, -, hl⟩ := createFields_ok hm
      constructor
      · intro h
        cases st with
        | item => cases p <;> simp [PTree.find] at h
        | field s =>
          simp only [PTree.find] at h
          cases hlk : lookup s (fds.map (·.name)) ts with
          | none => simp only [hlk] at h; cases h
          | some t =>
            simp only [hlk] at h
            obtain ⟨fd, hmem, rfl, hc⟩ := (hl s).1 t hlk
            obtain ⟨o, ho, rfl, ha⟩ := (ih hc l a' fl').1 h
            exact ⟨fd.offset + o, .field hT hmem ho, by omega, .field hT hmem ha⟩
      · rintro ⟨o, hp, rfl, ha⟩
        cases hp with
        | item h1 => rw [hT] at h1; cases h1
        | field h1 hmem hp =>
          rename_i fds' fd o
          rw [hT] at h1; cases h1
          obtain ⟨t, hlk, hc⟩ := (hl fd.name).2 fd hmem rfl
          simp only [PTree.find, hlk]
          obtain ⟨fd', hmem', hn', ha'⟩ := annotated_field hT ha
          cases names_inj hnd hmem hmem' hn'
          exact (ih hc l _ fl').2 ⟨o, hp, by omega, ha'⟩

theorem part_inside {T : Types} {u : Uuid} {p : List Step} {l : Leaf} {o : Int} (hp : Part T u p l o) :
    ∀ {size : Nat}, Sized T u size → 0 ≤ o ∧ o + l.width ≤ size := by
  induction hp with
  | simple h hk =>
    intro size hs
    cases hs with
    | simple h1 h2 => rw [h] at h1; cases h1; omega
    | array h1 => rw [h] at h1; cases h1
    | struct sz h1 => rw [h] at h1; cases h1
  | @item u item isz count s i p l o h hi hp ih =>
    intro size hs
    cases hs with
    | simple h1 => rw [h] at h1; cases h1
    | array h1 h2 h3 =>
      rw [h] at h1; cases h1
      obtain ⟨h4, h5⟩ := ih h2
      have h6 : (i + 1) * isz ≤ count * isz := Nat.mul_le_mul_right _ (by omega)
      have h7 : (i + 1) * isz = i * isz + isz := by rw [Nat.add_mul]; omega
      have h8 : (i : Int) * (isz : Int) = ((i * isz : Nat) : Int) := by simp
      rw [h8]
      omega
    | struct sz h1 => rw [h] at h1; cases h1
  | @field u fds fd p l o h hf hp ih =>
    intro size hs
    cases hs with
    | simple h1 => rw [h] at h1; cases h1
    | array h1 => rw [h] at h1; cases h1
    | struct sz h1 h2 h3 h4 =>
      rw [h] at h1; cases h1
      obtain ⟨h5, h6⟩ := ih (h2 fd hf)
      have := h3 fd hf
      omega

theorem pairwise_of_ne {α : Type} {R : α → α → Prop} (hsym : ∀ x y, R x y → R y x) :
    ∀ {xs : List α}, xs.Pairwise R → ∀ {x y : α}, x ∈ xs → y ∈ xs → x ≠ y → R x y
  | [], _, _, _, h, _, _ => by cases h
  | z :: xs, hp, x, y, hx, hy, hn => by
    rw [List.pairwise_cons] at hp
    rcases List.mem_cons.1 hx with rfl | hx'
    · rcases List.mem_cons.1 hy with rfl | hy'
      · exact absurd rfl hn
      · exact hp.1 y hy'
    · rcases List.mem_cons.1 hy with rfl | hy'
      · exact hsym _ _ (hp.1 x hx')
      · exact pairwise_of_ne hsym hp.2 hx' hy' hn

/-- Two parts of a published variable do not overlap. -/
theorem find_disjoint {T : Types} : ∀ (p q : List Step) {n : Nat} {name : Option Str} {u : Uuid}
    {a : Int} {fl : Flags} {t : PTree} {size : Nat}, create T n name u a fl = .ok t → Sized T u size →
    p ≠ q → ∀ {l l' : Leaf} {x y : Int} {f f' : Flags}, t.find p = some (l, x, f) →
    t.find q = some (l', y, f') → x + l.width ≤ y ∨ y + l'.width ≤ x := by
  intro p
  induction p with
  | nil =>
    intro q n name u a fl t size h hs hne l l' x y f f' h1 h2
    obtain ⟨o, hp, rfl, -⟩ := (find_iff _ h _ _ _).1 h1
    obtain ⟨o', hq, rfl, -⟩ := (find_iff _ h _ _ _).1 h2
    cases hp with
    | simple hT hk =>
      cases hq with
      | simple => exact absurd rfl hne
      | item h3 => rw [hT] at h3; cases h3
      | field h3 => rw [hT] at h3; cases h3
  | cons st p ih =>
    intro q n name u a fl t size h hs hne l l' x y f f' h1 h2
    obtain ⟨o, hp, rfl, -⟩ := (find_iff _ h _ _ _).1 h1
    obtain ⟨o', hq, rfl, -⟩ := (find_iff _ h _ _ _).1 h2
    cases hp with
    | @item _ item isz count s i p l o hT hi hp =>
      cases hq with
      | simple h3 => rw [hT] at h3; cases h3
      | field h3 => rw [hT] at h3; cases h3
      | @item _ item' isz' count' s' j q l' o' h3 hj hq =>
        rw [hT] at h3; cases h3
        cases hs with
        | simple h1 => rw [hT] at h1; cases h1
        | struct sz h1 => rw [hT] at h1; cases h1
        | array h3 hit hsz =>
          rw [hT] at h3; cases h3
          by_cases hij : i = j
          · subst hij
            have hne' : p ≠ q := fun e => hne (by rw [e])
            obtain ⟨m, rfl, ⟨l0, h4, -⟩ | ⟨item, isz, count, s, l0, h4, h5, hk, rfl⟩ |
              ⟨item, isz, count, s, ts, h4, hm, rfl⟩ | ⟨fds, ts, h4, -⟩⟩ := create_cases h
            · rw [hT] at h4; cases h4
            · rw [hT] at h4; cases h4
              cases hp with
              | simple =>
                cases hq with
                | simple => exact absurd rfl hne'
                | item h6 => rw [h5] at h6; cases h6
                | field h6 => rw [h5] at h6; cases h6
              | item h6 => rw [h5] at h6; cases h6
              | field h6 => rw [h5] at h6; cases h6
            · rw [hT] at h4; cases h4
              obtain ⟨hlen, hget⟩ := mapE_ok hm
              obtain ⟨z, hz, hc⟩ := hget i i (by simp [hi])
              simp only [PTree.find, hz] at h1 h2
              exact ih q hc hit hne' h1 h2
            · rw [hT] at h4; cases h4
          · obtain ⟨b1, b2⟩ := part_inside hp hit
            obtain ⟨b3, b4⟩ := part_inside hq hit
            have e1 : (i : Int) * (isz : Int) = ((i * isz : Nat) : Int) := by simp
            have e2 : (j : Int) * (isz : Int) = ((j * isz : Nat) : Int) := by simp
            rw [e1, e2]
            rcases Nat.lt_or_gt_of_ne hij with hlt | hlt
            · have h7 : (i + 1) * isz ≤ j * isz := Nat.mul_le_mul_right _ (by omega)
              have h8 : (i + 1) * isz = i * isz + isz := by rw [Nat.add_mul]; omega
              omega
            · have h7 : (j + 1) * isz ≤ i * isz := Nat.mul_le_mul_right _ (by omega)
              have h8 : (j + 1) * isz = j * isz + isz := by rw [Nat.add_mul]; omega
              omega
    | @field _ fds fd p l o hT hf hp =>
      cases hq with
      | simple h3 => rw [hT] at h3; cases h3
      | item h3 => rw [hT] at h3; cases h3
      | @field _ fds' fd' q l' o' h3 hf' hq =>
        rw [hT] at h3; cases h3
        cases hs with
        | simple h1 => rw [hT] at h1; cases h1
        | array h1 => rw [hT] at h1; cases h1
        | struct sz h3 hfs hb hd =>
          rw [hT] at h3; cases h3
          by_cases he : fd = fd'
          · subst he
            have hne' : p ≠ q := fun e => hne (by rw [e])
            obtain ⟨m, rfl, ⟨l0, h4, -⟩ | ⟨item, isz, count, s, l0, h4, -⟩ |
              ⟨item, isz, count, s, ts, h4, -⟩ | ⟨fds, ts, h4, hm, rfl⟩⟩ := create_cases h
            · rw [hT] at h4; cases h4
            · rw [hT] at h4; cases h4
            · rw [hT] at h4; cases h4
            · rw [hT] at h4; cases h4
              obtain ⟨hnd, -, hl⟩ := createFields_ok hm
              obtain ⟨z, hz, hc⟩ := (hl fd.name).2 fd hf rfl
              simp only [PTree.find, hz] at h1 h2
              exact ih q hc (hfs fd hf) hne' h1 h2
          · obtain ⟨b1, b2⟩ := part_inside hp (hfs fd hf)
            obtain ⟨b3, b4⟩ := part_inside hq (hfs fd' hf')
            rcases pairwise_of_ne (fun x y h => h.symm) hd hf hf' he with h9 | h9 <;> omega

/-! ### Which variables can be published -/

theorem grammar_item (i : Nat) : Grammar (itemName i) :=
  .inr ⟨Nat.toDigits 10 i, rfl, Nat.toDigits_ne_nil, Verif.Path.toDigits_isDigit i⟩

theorem mapE_mono {α β : Type} {f g : α → Except Err β} (h : ∀ x y, f x = .ok y → g x = .ok y) :
    ∀ {xs : List α} {ys : List β}, mapE f xs = .ok ys → mapE g xs = .ok ys
  | [], ys, hm => hm
  | x :: xs, ys, hm => by
    unfold mapE at hm ⊢
    cases hx : f x with
    | error e => rw [hx] at hm; cases hm
    | ok y =>
      rw [hx] at hm
      cases hr : mapE f xs with
      | error e => simp only [hr] at hm; cases hm
      | ok zs =>
        simp only [hr] at hm
        cases hm
        rw [h _ _ hx, mapE_mono h hr]

theorem mapE_all {α β : Type} {f : α → Except Err β} : ∀ {xs : List α},
    (∀ x ∈ xs, ∃ y, f x = .ok y) → ∃ ys, mapE f xs = .ok ys
  | [], _ => ⟨[], rfl⟩
  | x :: xs, h => by
    obtain ⟨y, hy⟩ := h x List.mem_cons_self
    obtain ⟨ys, hys⟩ := mapE_all (fun x hx => h x (List.mem_cons_of_mem _ hx))
    exact ⟨y :: ys, by unfold mapE; rw [hy, hys]⟩

theorem createFields_mono {f g : FDef → Except Err PTree} (h : ∀ x y, f x = .ok y → g x = .ok y) :
    ∀ {xs : List FDef} {done : List Str} {ys : List PTree}, createFields f done xs = .ok ys →
    createFields g done xs = .ok ys
  | [], _, ys, hm => hm
  | x :: xs, done, ys, hm => by
    unfold createFields at hm ⊢
    cases hx : f x with
    | error e => rw [hx] at hm; cases hm
    | ok y =>
      simp only [hx] at hm
      rw [h _ _ hx]
      by_cases hd : x.name ∈ done
      · rw [if_pos hd] at hm; cases hm
      · simp only [if_neg hd] at hm ⊢
        cases hr : createFields f (x.name :: done) xs with
        | error e => simp only [hr] at hm; cases hm
        | ok zs =>
          simp only [hr] at hm
          cases hm
          rw [createFields_mono h hr]

theorem createFields_all {f : FDef → Except Err PTree} : ∀ {xs : List FDef} {done : List Str},
    (xs.map (·.name)).Nodup → (∀ x ∈ xs, x.name ∉ done) →
    (∀ x ∈ xs, ∃ y, f x = .ok y) → ∃ ys, createFields f done xs = .ok ys
  | [], _, _, _, _ => ⟨[], rfl⟩
  | x :: xs, done, hn, hd, h => by
    simp only [List.map_cons, List.nodup_cons] at hn
    obtain ⟨y, hy⟩ := h x List.mem_cons_self
    obtain ⟨ys, hys⟩ := createFields_all (done := x.name :: done) hn.2 (by
      intro z hz hm
      rcases List.mem_cons.1 hm with e | hm
      · exact hn.1 (List.mem_map.2 ⟨z, hz, e⟩)
      · exact hd z (List.mem_cons_of_mem _ hz) hm) (fun x hx => h x (List.mem_cons_of_mem _ hx))
    exact ⟨y :: ys, by
      unfold createFields
      simp only [hy, if_neg (hd x List.mem_cons_self), hys]⟩

theorem checkName_ok {s : Str} (h : Grammar s) : checkName (some s) = .ok s := (checkName_iff s).2 h

theorem checkName_ok' {s : Option Str} {v : Str} (h : checkName s = .ok v) : ∃ w, s = some w ∧ Grammar w := by
  cases s with
  | none => simp [checkName] at h
  | some s =>
    refine ⟨s, rfl, (checkName_iff s).1 ?_⟩
    have : v = s := by
      revert h
      simp only [checkName]
      repeat' split
      all_goals first | (intro h; cases h; rfl) | (intro h; cases h)
    rw [← this] at h ⊢
    exact h

/-- `create` succeeds with a larger bound, too. -/
theorem create_mono {T : Types} : ∀ {n : Nat} {name : Option Str} {u : Uuid} {a : Int} {fl : Flags}
    {t : PTree}, create T n name u a fl = .ok t → create T (n + 1) name u a fl = .ok t := by
  intro n
  induction n with
  | zero => intro name u a fl t h; cases h
  | succ n ih =>
    intro name u a fl t h
    rw [create] at h ⊢
    cases hT : T u with
    | none => rw [hT] at h; cases h
    | some d =>
      cases d with
      | simple l => simpa only [hT] using h
      | array item isz count s =>
        simp only [hT] at h ⊢
        cases hc : checkName name with
        | invalidObjectName => simp only [hc] at h; cases h
        | ok _ =>
          simp only [hc] at h ⊢
          split at h
          · cases h
          · rename_i hu
            rw [if_neg hu]
            cases hs : simpleItem T s item with
            | some l => simp only [hs] at h ⊢; exact h
            | none =>
              simp only [hs] at h ⊢
              split at h
              · cases h
              · rename_i ts hm
                rw [mapE_mono (fun x y hx => ih hx) hm]
                exact h
      | struct fds =>
        simp only [hT] at h ⊢
        cases hc : checkName name with
        | invalidObjectName => simp only [hc] at h; cases h
        | ok _ =>
          simp only [hc] at h ⊢
          split at h
          · cases h
          · rename_i ts hm
            rw [createFields_mono (fun x y hx => ih hx) hm]
            exact h

theorem create_mono_le {T : Types} {n m : Nat} {name : Option Str} {u : Uuid} {a : Int} {fl : Flags}
    {t : PTree} (h : create T n name u a fl = .ok t) (hle : n ≤ m) : create T m name u a fl = .ok t := by
  induction hle with
  | refl => exact h
  | step _ ih => exact create_mono ih

/-- A bound common to all members of a list. -/
theorem common_bound {α : Type} {P : α → Nat → Prop} (hm : ∀ x n m, P x n → n ≤ m → P x m) :
    ∀ {xs : List α}, (∀ x ∈ xs, ∃ n, P x n) → ∃ n, ∀ x ∈ xs, P x n
  | [], _ => ⟨0, by simp⟩
  | x :: xs, h => by
    obtain ⟨n, hn⟩ := h x List.mem_cons_self
    obtain ⟨m, hm'⟩ := common_bound hm (fun y hy => h y (List.mem_cons_of_mem _ hy))
    refine ⟨max n m, ?_⟩
    intro y hy
    rcases List.mem_cons.1 hy with rfl | hy
    · exact hm _ _ _ hn (Nat.le_max_left ..)
    · exact hm _ _ _ (hm' y hy) (Nat.le_max_right ..)

theorem create_publishable {T : Types} {u : Uuid} (h : Publishable T u) : ∃ n, ∀ (name : Str) (a : Int)
    (fl : Flags), Grammar name → ∃ t, create T n (some name) u a fl = .ok t := by
  induction h with
  | @simple u l h hk hs hv =>
    refine ⟨1, fun name a fl hg => ⟨.simple l a fl, ?_⟩⟩
    rw [create]
    simp only [h, if_neg hk, checkName_ok hg, hs, hv, or_self, if_false]
  | @values u item size count l h hi hk hs hv =>
    refine ⟨1, fun name a fl hg => ⟨.sarray l a size count fl, ?_⟩⟩
    rw [create]
    simp only [h, checkName_ok hg, hs, hv, or_self, if_false, simpleItem, hi, if_neg hk]
  | @array u item size count s h hi hs hv ih =>
    by_cases h0 : 0 < count
    · obtain ⟨n, hn⟩ := ih h0
      refine ⟨n + 1, fun name a fl hg => ?_⟩
      rw [create]
      simp only [h, checkName_ok hg, hs, hv, or_self, if_false]
      cases simpleItem T s item with
      | some l => exact ⟨_, rfl⟩
      | none =>
        obtain ⟨ts, hts⟩ := mapE_all (f := fun (i : Nat) => create T n (some (itemName i)) item
          (a + i * size) fl) (xs := List.range count) (fun i _ => hn _ _ _ (grammar_item i))
        rw [hts]; exact ⟨_, rfl⟩
    · refine ⟨1, fun name a fl hg => ?_⟩
      rw [create]
      have : count = 0 := by omega
      subst this
      simp only [h, checkName_ok hg, hs, hv, or_self, if_false]
      cases simpleItem T s item with
      | some l => exact ⟨_, rfl⟩
      | none => exact ⟨_, rfl⟩
  | @struct u fds h hd hn hf ih =>
    obtain ⟨n, hn'⟩ := common_bound (P := fun (fd : FDef) n => ∀ (name : Str) (a : Int)
      (fl : Flags), Grammar name → ∃ t, create T n (some name) fd.uuid a fl = .ok t)
      (fun fd n m hP hle name a fl hg => by
        obtain ⟨t, ht⟩ := hP name a fl hg
        exact ⟨t, create_mono_le ht hle⟩) ih
    refine ⟨n + 1, fun name a fl hg => ?_⟩
    rw [create]
    simp only [h, checkName_ok hg]
    obtain ⟨ts, hts⟩ := createFields_all (f := fun fd => create T n (some fd.name) fd.uuid (a + fd.offset)
      ⟨fd.flags.view, fd.flags.state, fd.flags.input || fl.input, fd.flags.output || fl.output⟩)
      (done := []) hd (by simp) (fun fd hfd => hn' fd hfd _ _ _ (hn fd hfd))
    rw [hts]; exact ⟨_, rfl⟩

theorem publishable_of_create {T : Types} : ∀ {n : Nat} {name : Option Str} {u : Uuid} {a : Int}
    {fl : Flags} {t : PTree}, create T n name u a fl = .ok t →
    (∃ s, name = some s ∧ Grammar s) ∧ Publishable T u := by
  intro n
  induction n with
  | zero => intro name u a fl t h; cases h
  | succ n ih =>
    intro name u a fl t h
    rw [create] at h
    cases hT : T u with
    | none => rw [hT] at h; cases h
    | some d =>
      cases d with
      | simple l =>
        simp only [hT] at h
        by_cases hk : l.kind = .None
        · rw [if_pos hk] at h; cases h
        · rw [if_neg hk] at h
          cases hc : checkName name with
          | invalidObjectName => simp only [hc] at h; cases h
          | ok s =>
            simp only [hc] at h
            split at h
            · cases h
            · rename_i hu
              exact ⟨checkName_ok' hc, .simple hT hk (fun e => hu (.inl e)) (fun e => hu (.inr e))⟩
      | array item isz count s =>
        simp only [hT] at h
        cases hc : checkName name with
        | invalidObjectName => simp only [hc] at h; cases h
        | ok _ =>
          simp only [hc] at h
          split at h
          · cases h
          · rename_i hu
            refine ⟨checkName_ok' hc, ?_⟩
            cases hs : simpleItem T s item with
            | some l =>
              unfold simpleItem at hs
              split at hs
              · rename_i l' hi
                split at hs
                · cases hs
                · rename_i hk
                  exact .values hT hi hk (fun e => hu (.inl e)) (fun e => hu (.inr e))
              · cases hs
            | none =>
              simp only [hs] at h
              split at h
              · cases h
              · rename_i ts hm
                refine .array hT ?_ (fun e => hu (.inl e)) (fun e => hu (.inr e))
                intro h0
                obtain ⟨y, -, hy⟩ := (mapE_ok hm).2 0 0 (by simp [h0])
                exact (ih hy).2
      | struct fds =>
        simp only [hT] at h
        cases hc : checkName name with
        | invalidObjectName => simp only [hc] at h; cases h
        | ok _ =>
          simp only [hc] at h
          split at h
          · cases h
          · rename_i ts hm
            obtain ⟨h1, -, h2⟩ := createFields_ok hm
            refine ⟨checkName_ok' hc, .struct hT h1 ?_ ?_⟩
            · intro fd hfd
              obtain ⟨t, -, ht⟩ := (h2 fd.name).2 fd hfd rfl
              obtain ⟨⟨s, e, hg⟩, -⟩ := ih ht
              cases e; exact hg
            · intro fd hfd
              obtain ⟨t, -, ht⟩ := (h2 fd.name).2 fd hfd rfl
              exact (ih ht).2

/-! ### End of the recursion -/

theorem mapE_congr {α β : Type} {f g : α → Except Err β} : ∀ {xs : List α}, (∀ x ∈ xs, f x = g x) →
    mapE f xs = mapE g xs
  | [], _ => rfl
  | x :: xs, h => by
    unfold mapE
    rw [h x List.mem_cons_self, mapE_congr (fun y hy => h y (List.mem_cons_of_mem _ hy))]

theorem mapE_ne {α β : Type} {f : α → Except Err β} : ∀ {xs : List α},
    (∀ x ∈ xs, f x ≠ .error .overflow) → mapE f xs ≠ .error .overflow
  | [], _ => by simp [mapE]
  | x :: xs, h => by
    unfold mapE
    have h1 := h x List.mem_cons_self
    have h2 := mapE_ne (fun y hy => h y (List.mem_cons_of_mem _ hy))
    cases hx : f x with
    | error e => rw [hx] at h1; simpa using h1
    | ok y =>
      cases hr : mapE f xs with
      | error e => rw [hr] at h2; simpa using h2
      | ok zs => simp

theorem createFields_congr {f g : FDef → Except Err PTree} : ∀ {xs : List FDef} {done : List Str},
    (∀ x ∈ xs, f x = g x) → createFields f done xs = createFields g done xs
  | [], _, _ => rfl
  | x :: xs, done, h => by
    unfold createFields
    rw [h x List.mem_cons_self, createFields_congr (fun y hy => h y (List.mem_cons_of_mem _ hy))]

theorem createFields_ne {f : FDef → Except Err PTree} : ∀ {xs : List FDef} {done : List Str},
    (∀ x ∈ xs, f x ≠ .error .overflow) → createFields f done xs ≠ .error .overflow
  | [], _, _ => by simp [createFields]
  | x :: xs, done, h => by
    unfold createFields
    have h1 := h x List.mem_cons_self
    have h2 := createFields_ne (done := x.name :: done) (fun y hy => h y (List.mem_cons_of_mem _ hy))
    cases hx : f x with
    | error e => rw [hx] at h1; simpa using h1
    | ok y =>
      simp only
      split
      · simp
      · cases hr : createFields f (x.name :: done) xs with
        | error e => rw [hr] at h2; simpa using h2
        | ok zs => simp

theorem create_ranked {T : Types} {rank : Uuid → Nat}
    (ha : ∀ u item isz count s, T u = some (.array item isz count s) → rank item < rank u)
    (hf : ∀ u fds, T u = some (.struct fds) → ∀ fd ∈ fds, rank fd.uuid < rank u) :
    ∀ (r : Nat) (u : Uuid), rank u = r → ∀ (n m : Nat), r < n → r < m → ∀ name a fl,
      create T n name u a fl ≠ .error .overflow ∧
      create T n name u a fl = create T m name u a fl := by
  intro r
  induction r using Nat.strongRecOn with
  | _ r ih =>
    intro u hr n m hn hm name a fl
    cases n with
    | zero => omega
    | succ n =>
    cases m with
    | zero => omega
    | succ m =>
      rw [create, create]
      cases hT : T u with
      | none => simp
      | some d =>
        cases d with
        | simple l =>
          simp only
          refine ⟨?_, trivial⟩
          repeat' split
          all_goals simp
        | array item isz count s =>
          have hlt := ha _ _ _ _ _ hT
          have key := fun (i : Nat) => ih (rank item) (by omega) item rfl n m (by omega) (by omega)
            (some (itemName i)) (a + i * isz) fl
          have e1 := mapE_congr (f := fun (i : Nat) => create T n (some (itemName i)) item (a + i * isz) fl)
            (g := fun (i : Nat) => create T m (some (itemName i)) item (a + i * isz) fl)
            (xs := List.range count) (fun i _ => (key i).2)
          have e2 := mapE_ne (f := fun (i : Nat) => create T n (some (itemName i)) item (a + i * isz) fl)
            (xs := List.range count) (fun i _ => (key i).1)
          simp only [← e1, and_true]
          repeat' split
          all_goals first | simp; done | skip
          all_goals (rename_i h; rw [h] at e2; simpa using e2)
        | struct fds =>
          have key := fun (fd : FDef) (hfd : fd ∈ fds) => ih (rank fd.uuid) (by have := hf _ _ hT fd hfd; omega) fd.uuid rfl n m
            (by have := hf _ _ hT fd hfd; omega) (by have := hf _ _ hT fd hfd; omega)
            (some fd.name) (a + fd.offset) ⟨fd.flags.view, fd.flags.state, fd.flags.input || fl.input, fd.flags.output || fl.output⟩
          have e1 := createFields_congr (done := [])
            (f := fun fd => create T n (some fd.name) fd.uuid (a + fd.offset)
              ⟨fd.flags.view, fd.flags.state, fd.flags.input || fl.input, fd.flags.output || fl.output⟩)
            (g := fun fd => create T m (some fd.name) fd.uuid (a + fd.offset)
              ⟨fd.flags.view, fd.flags.state, fd.flags.input || fl.input, fd.flags.output || fl.output⟩)
            (xs := fds) (fun fd hfd => (key fd hfd).2)
          have e2 := createFields_ne (done := [])
            (f := fun fd => create T n (some fd.name) fd.uuid (a + fd.offset)
              ⟨fd.flags.view, fd.flags.state, fd.flags.input || fl.input, fd.flags.output || fl.output⟩)
            (xs := fds) (fun fd hfd => (key fd hfd).1)
          simp only [← e1, and_true]
          repeat' split
          all_goals first | simp; done | skip
          all_goals (rename_i h; rw [h] at e2; simpa using e2)

end Verif.Mem
