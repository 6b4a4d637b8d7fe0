import Mathlib.Tactic.Linarith
import Verif.Spec.MpmSetup

namespace Verif.MpmSetup

variable {α β : Type}

theorem commitAll_eq (c : Config) (dst : Loc) (pend : List (List α)) (s : Scene α β) :
    (commitAll c dst pend s).particles = s.particles ++ pend.map (particlesOf c dst) ∧ (commitAll c dst pend s).boundaries = s.boundaries ∧
      (commitAll c dst pend s).models.map Prod.fst = s.models.map Prod.fst ++ pend.map (fun _ => c) ∧
      (s.models.map Prod.snd = List.range s.particles.length →
        (commitAll c dst pend s).models.map Prod.snd = List.range (commitAll c dst pend s).particles.length) := by
  induction pend generalizing s with
  | nil => simp [commitAll]
  | cons xs r ih =>
    obtain ⟨h1, h2, h3, h4⟩ := ih (s := { s with models := s.models ++ [(c, s.particles.length)], particles := s.particles ++ [particlesOf c dst xs] })
    refine ⟨?_, ?_, ?_, fun h => ?_⟩
    · rw [commitAll, h1]; simp
    · rw [commitAll, h2]
    · rw [commitAll, h3]; simp
    · rw [commitAll]
      refine h4 ?_
      simp [h, List.range_succ]

theorem session_eq (ops : List (Op α)) (pend : List (List α)) (c : Config) (s : Scene α β) :
    (session pend c ops s).particles =
        s.particles ++ pend.map (particlesOf (next c ops).1 (next c ops).2) ++ (expected c ops).map (fun e => particlesOf e.1 e.2.1 e.2.2) ∧
      (session pend c ops s).boundaries = s.boundaries ∧
      (session pend c ops s).models.map Prod.fst = s.models.map Prod.fst ++ pend.map (fun _ => (next c ops).1) ++ (expected c ops).map (fun e => e.1) ∧
      (s.models.map Prod.snd = List.range s.particles.length →
        (session pend c ops s).models.map Prod.snd = List.range (session pend c ops s).particles.length) := by
  induction ops generalizing pend c s with
  | nil =>
    obtain ⟨h1, h2, h3, h4⟩ := commitAll_eq c host pend s
    simp only [session, next, expected, List.map_nil, List.append_nil]
    exact ⟨h1, h2, h3, h4⟩
  | cons op r ih =>
    cases op with
    | commit dst =>
      obtain ⟨h1, h2, h3, h4⟩ := commitAll_eq c dst pend s
      obtain ⟨k1, k2, k3, k4⟩ := ih [] c (commitAll c dst pend s)
      simp only [session, next, expected, configure]
      refine ⟨?_, ?_, ?_, fun h => k4 (h4 h)⟩
      · rw [k1, h1]; simp
      · rw [k2, h2]
      · rw [k3, h3]; simp
    | add xs =>
      obtain ⟨k1, k2, k3, k4⟩ := ih (if xs.length ≠ 0 then pend ++ [xs] else pend) c s
      simp only [session, next, expected, configure]
      refine ⟨?_, k2, ?_, k4⟩
      · rw [k1]
        by_cases h : xs = [] <;> simp [h]
      · rw [k3]
        by_cases h : xs = [] <;> simp [h]
    | _ => simpa only [session, next, expected] using ih pend (configure c _) s

theorem sessions_eq (ss : List (List (Op α))) (s : Scene α β) (hs : s.models.map Prod.snd = List.range s.particles.length) :
    (ss.foldl (fun s ops => particle ops s) s).particles =
        s.particles ++ (ss.flatMap (expected (.default .equationOfState))).map (fun e => particlesOf e.1 e.2.1 e.2.2) ∧
      (ss.foldl (fun s ops => particle ops s) s).models.map Prod.fst = s.models.map Prod.fst ++ (ss.flatMap (expected (.default .equationOfState))).map (fun e => e.1) ∧
      (ss.foldl (fun s ops => particle ops s) s).models.map Prod.snd = List.range (ss.foldl (fun s ops => particle ops s) s).particles.length := by
  induction ss generalizing s with
  | nil => simpa using hs
  | cons ops r ih =>
    obtain ⟨h1, -, h3, h4⟩ := session_eq ops [] (.default .equationOfState) s
    obtain ⟨k1, k2, k3⟩ := ih (particle ops s) (h4 hs)
    refine ⟨?_, ?_, k3⟩
    · rw [List.foldl_cons, k1, particle, h1]; simp
    · rw [List.foldl_cons, k2, particle, h3]; simp

theorem simOf_eq (scenes : List (List (List (Op α)) × List β)) (t : Sim α β) (ht : t.models.map Prod.snd = List.range t.particles.length) :
    (scenes.foldl (fun t ss => addScene t (sceneOf ss)) t).particles = t.particles ++ (allSets scenes).map (fun e => particlesOf e.1 e.2.1 e.2.2) ∧
      (scenes.foldl (fun t ss => addScene t (sceneOf ss)) t).models.map Prod.fst = t.models.map Prod.fst ++ (allSets scenes).map (fun e => e.1) ∧
      (scenes.foldl (fun t ss => addScene t (sceneOf ss)) t).models.map Prod.snd =
        List.range (scenes.foldl (fun t ss => addScene t (sceneOf ss)) t).particles.length := by
  induction scenes generalizing t with
  | nil => simpa [allSets] using ht
  | cons ss r ih =>
    obtain ⟨h1, h2, h3⟩ := sessions_eq (β := β) ss.1 Scene.empty (by simp [Scene.empty])
    have hk : (addScene t (sceneOf ss)).models.map Prod.snd = List.range (addScene t (sceneOf ss)).particles.length := by
      have e : (sceneOf ss).models.map (fun m => t.particles.length + m.2) = ((sceneOf ss).models.map Prod.snd).map (t.particles.length + ·) := by simp
      simp only [addScene, List.map_append, List.map_map, List.length_append]
      rw [ht, List.range_add, show (Prod.snd ∘ fun m : Config × Nat => (m.1, t.particles.length + m.2)) = fun m => t.particles.length + m.2 from rfl, e]
      rw [show (sceneOf ss).models.map Prod.snd = List.range (sceneOf ss).particles.length from h3]
    obtain ⟨k1, k2, k3⟩ := ih (addScene t (sceneOf ss)) hk
    refine ⟨?_, ?_, k3⟩
    · rw [List.foldl_cons, k1]
      simp only [addScene, sceneOf, h1, allSets]
      simp [Scene.empty]
    · rw [List.foldl_cons, k2]
      simp only [addScene, sceneOf, allSets, List.map_append, List.map_map]
      rw [show (Prod.fst ∘ fun m : Config × Nat => (m.1, t.particles.length + m.2)) = Prod.fst from rfl, h2]
      simp [Scene.empty]

theorem find_self {models : List (Config × Nat)} {n i : Nat} (h : models.map Prod.snd = List.range n) (hi : i < n) : searchModel models i = i := by
  have hl : models.length = n := by have := congrArg List.length h; simpa using this
  have hg : ∀ k (hk : k < models.length), (models[k]).2 = k := fun k hk => by
    have : (models.map Prod.snd)[k]'(by simpa using hk) = k := by simp [h]
    simpa using this
  have : models.findIdx? (fun m => m.2 == i) = some i := by
    rw [List.findIdx?_eq_some_iff_getElem]
    refine ⟨by omega, by simp [hg], fun j hj => ?_⟩
    simp [hg j (by omega)]
    omega
  rw [searchModel, this]; rfl

theorem put_locs (mid id n : Nat) (loc : Loc) (gs : List Group) :
    (put mid id n loc gs).map Group.loc = if loc ∈ gs.map Group.loc then gs.map Group.loc else gs.map Group.loc ++ [loc] := by
  induction gs with
  | nil => simp [put]
  | cons g gs ih =>
    by_cases h : g.loc = loc
    · simp [put, h]
    · have h' : ¬loc = g.loc := fun e => h e.symm
      simp only [put, if_neg h, List.map_cons, ih, List.mem_cons, h', false_or]
      split <;> simp

theorem put_mem {mid id n : Nat} {loc : Loc} {gs : List Group} (hn : (gs.map Group.loc).Nodup) {g : Group} (hg : g ∈ put mid id n loc gs) :
    (g ∈ gs ∧ g.loc ≠ loc) ∨ (∃ g0 ∈ gs, g0.loc = loc ∧ g = ⟨g0.loc, g0.num + n, g0.objs ++ [(mid, id)]⟩) ∨
      (loc ∉ gs.map Group.loc ∧ g = ⟨loc, n, [(mid, id)]⟩) := by
  induction gs with
  | nil =>
    simp only [put, List.mem_singleton] at hg
    exact Or.inr (Or.inr ⟨by simp, hg⟩)
  | cons a gs ih =>
    simp only [List.map_cons, List.nodup_cons] at hn
    by_cases h : a.loc = loc
    · simp only [put, if_pos h, List.mem_cons] at hg
      rcases hg with rfl | hg
      · exact Or.inr (Or.inl ⟨a, by simp, h, rfl⟩)
      · refine Or.inl ⟨List.mem_cons_of_mem _ hg, fun e => hn.1 ?_⟩
        rw [h, ← e]
        exact List.mem_map_of_mem hg
    · simp only [put, if_neg h, List.mem_cons] at hg
      rcases hg with rfl | hg
      · exact Or.inl ⟨by simp, h⟩
      · rcases ih hn.2 hg with ⟨h1, h2⟩ | ⟨g0, h1, h2⟩ | ⟨h1, h2⟩
        · exact Or.inl ⟨List.mem_cons_of_mem _ h1, h2⟩
        · exact Or.inr (Or.inl ⟨g0, List.mem_cons_of_mem _ h1, h2⟩)
        · refine Or.inr (Or.inr ⟨?_, h2⟩)
          simp only [List.map_cons, List.mem_cons, not_or]
          exact ⟨fun e => h e.symm, h1⟩

/-- The groups of the first sets of particles. -/
structure Inv (gs : List Group) (l : List (Particles α)) : Prop where
  nodup : (gs.map Group.loc).Nodup
  locs : ∀ loc, loc ∈ gs.map Group.loc ↔ ∃ p ∈ l, p.loc = loc
  num : ∀ g ∈ gs, g.num = ((placed l g.loc).map fun p => p.1.x.length).sum
  objs : ∀ g ∈ gs, g.objs = (placed l g.loc).map fun p => (p.2, p.2)

theorem placed_snoc (l : List (Particles α)) (p : Particles α) (loc : Loc) :
    placed (l ++ [p]) loc = placed l loc ++ if p.loc = loc then [(p, l.length)] else [] := by
  unfold placed
  rw [List.zipIdx_append, List.filter_append]
  congr 1
  simp only [List.zipIdx_cons, List.zipIdx_nil, Nat.zero_add, List.filter_cons, List.filter_nil]
  by_cases h : p.loc = loc <;> simp [h]

theorem placed_none {l : List (Particles α)} {loc : Loc} (h : ¬∃ p ∈ l, p.loc = loc) : placed l loc = [] := by
  unfold placed
  rw [List.filter_eq_nil_iff]
  rintro ⟨p, i⟩ hp
  simp only [decide_eq_true_eq]
  intro e
  refine h ⟨p, ?_, e⟩
  have := List.mem_zipIdx hp
  obtain ⟨-, h2, h3⟩ := this
  rw [h3]
  exact List.getElem_mem _

theorem inv_put {gs : List Group} {l : List (Particles α)} (h : Inv gs l) (p : Particles α) :
    Inv (put l.length l.length p.x.length p.loc gs) (l ++ [p]) := by
  have hl := put_locs l.length l.length p.x.length p.loc gs
  refine ⟨?_, ?_, ?_, ?_⟩
  · rw [hl]
    split
    · exact h.nodup
    · rename_i k
      rw [List.nodup_append]
      refine ⟨h.nodup, by simp, ?_⟩
      intro a ha b hb e
      simp only [List.mem_singleton] at hb
      subst hb; subst e
      exact k ha
  · intro loc
    rw [hl]
    have : (∃ q ∈ l ++ [p], q.loc = loc) ↔ (∃ q ∈ l, q.loc = loc) ∨ p.loc = loc := by
      simp only [List.mem_append, List.mem_singleton]
      constructor
      · rintro ⟨q, hq | rfl, e⟩
        · exact Or.inl ⟨q, hq, e⟩
        · exact Or.inr e
      · rintro (⟨q, hq, e⟩ | e)
        · exact ⟨q, Or.inl hq, e⟩
        · exact ⟨p, Or.inr rfl, e⟩
    rw [this, ← h.locs]
    split
    · rename_i k
      refine ⟨Or.inl, ?_⟩
      rintro (e | rfl)
      · exact e
      · exact k
    · simp only [List.mem_append, List.mem_singleton, eq_comm (a := loc)]
  · intro g hg
    rw [placed_snoc]
    rcases put_mem h.nodup hg with ⟨h1, h2⟩ | ⟨g0, h1, h2, rfl⟩ | ⟨h1, rfl⟩
    · rw [if_neg (fun e => h2 e.symm), List.append_nil]
      exact h.num g h1
    · simp only
      rw [if_pos h2.symm, h.num g0 h1]
      simp
    · simp only
      rw [if_pos trivial, placed_none (fun k => h1 ((h.locs _).2 k))]
      simp
  · intro g hg
    rw [placed_snoc]
    rcases put_mem h.nodup hg with ⟨h1, h2⟩ | ⟨g0, h1, h2, rfl⟩ | ⟨h1, rfl⟩
    · rw [if_neg (fun e => h2 e.symm), List.append_nil]
      exact h.objs g h1
    · simp only
      rw [if_pos h2.symm, h.objs g0 h1]
      simp
    · simp only
      rw [if_pos trivial, placed_none (fun k => h1 ((h.locs _).2 k))]
      simp

theorem groupsFrom_inv {models : List (Config × Nat)} {n : Nat} (hm : models.map Prod.snd = List.range n) (ps : List (Particles α)) {l : List (Particles α)}
    {gs : List Group} (h : Inv gs l) (hn : l.length + ps.length = n) : Inv (groupsFrom models l.length gs ps) (l ++ ps) := by
  induction ps generalizing l gs with
  | nil => simpa [groupsFrom] using h
  | cons p ps ih =>
    simp only [List.length_cons] at hn
    rw [groupsFrom, find_self hm (by omega)]
    have := ih (inv_put h p) (by simp; omega)
    simpa using this

/-- The loop over the models. -/
theorem dt_fold (fuel : Nat) (eps relTol dx cfl : ℝ) (models : List (Config × Nat)) (big : ℝ) :
    evaluatedDt fuel eps relTol big dx cfl models ≤ big ∧
      (∀ m ∈ models, m.1.kind ≠ .equationOfState → ∀ v, timestep fuel eps relTol m.1.E m.1.nu m.1.rho dx cfl = some v → evaluatedDt fuel eps relTol big dx cfl models ≤ v) ∧
      (evaluatedDt fuel eps relTol big dx cfl models = big ∨ ∃ m ∈ models, m.1.kind ≠ .equationOfState ∧
        timestep fuel eps relTol m.1.E m.1.nu m.1.rho dx cfl = some (evaluatedDt fuel eps relTol big dx cfl models)) := by
  induction models generalizing big with
  | nil => simp [evaluatedDt]
  | cons a l ih =>
    by_cases hk : a.1.kind = .equationOfState
    · have e : evaluatedDt fuel eps relTol big dx cfl (a :: l) = evaluatedDt fuel eps relTol big dx cfl l := by
        unfold evaluatedDt; rw [List.foldl_cons, if_pos hk]
      obtain ⟨h1, h2, h3⟩ := ih big
      rw [e]
      refine ⟨h1, ?_, ?_⟩
      · rintro m hm hmk v hv
        rcases List.mem_cons.1 hm with rfl | hm
        · exact absurd hk hmk
        · exact h2 m hm hmk v hv
      · rcases h3 with h3 | ⟨m, hm, h3⟩
        · exact Or.inl h3
        · exact Or.inr ⟨m, List.mem_cons_of_mem _ hm, h3⟩
    · cases ht : timestep fuel eps relTol a.1.E a.1.nu a.1.rho dx cfl with
      | none =>
        have e : evaluatedDt fuel eps relTol big dx cfl (a :: l) = evaluatedDt fuel eps relTol big dx cfl l := by
          unfold evaluatedDt; rw [List.foldl_cons, if_neg hk, ht]
        obtain ⟨h1, h2, h3⟩ := ih big
        rw [e]
        refine ⟨h1, ?_, ?_⟩
        · rintro m hm hmk v hv
          rcases List.mem_cons.1 hm with rfl | hm
          · rw [ht] at hv; cases hv
          · exact h2 m hm hmk v hv
        · rcases h3 with h3 | ⟨m, hm, h3⟩
          · exact Or.inl h3
          · exact Or.inr ⟨m, List.mem_cons_of_mem _ hm, h3⟩
      | some v =>
        by_cases hv : v < big
        · have e : evaluatedDt fuel eps relTol big dx cfl (a :: l) = evaluatedDt fuel eps relTol v dx cfl l := by
            unfold evaluatedDt; rw [List.foldl_cons, if_neg hk, ht]; simp only [if_pos hv]
          obtain ⟨h1, h2, h3⟩ := ih v
          rw [e]
          refine ⟨by linarith, ?_, ?_⟩
          · rintro m hm hmk w hw
            rcases List.mem_cons.1 hm with rfl | hm
            · rw [ht] at hw; cases hw; exact h1
            · exact h2 m hm hmk w hw
          · rcases h3 with h3 | ⟨m, hm, h3⟩
            · exact Or.inr ⟨a, List.mem_cons_self, hk, by rw [h3, ht]⟩
            · exact Or.inr ⟨m, List.mem_cons_of_mem _ hm, h3⟩
        · have e : evaluatedDt fuel eps relTol big dx cfl (a :: l) = evaluatedDt fuel eps relTol big dx cfl l := by
            unfold evaluatedDt; rw [List.foldl_cons, if_neg hk, ht]; simp only [if_neg hv]
          obtain ⟨h1, h2, h3⟩ := ih big
          rw [e]
          refine ⟨h1, ?_, ?_⟩
          · rintro m hm hmk w hw
            rcases List.mem_cons.1 hm with rfl | hm
            · rw [ht] at hw; cases hw; linarith [not_lt.1 hv]
            · exact h2 m hm hmk w hw
          · rcases h3 with h3 | ⟨m, hm, h3⟩
            · exact Or.inl h3
            · exact Or.inr ⟨m, List.mem_cons_of_mem _ hm, h3⟩

end Verif.MpmSetup
