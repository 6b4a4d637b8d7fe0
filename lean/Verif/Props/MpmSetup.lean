import Mathlib.Tactic.NormNum
import Mathlib.Tactic.FieldSimp
import Mathlib.Tactic.Ring
import Verif.Proof.MpmSetup
import Verif.Props.ScalarMath

/-!
Properties of the set-up of simulations.
-/
namespace Verif.MpmSetup
open Verif.MathUtils

variable {α β : Type}

/-- Every set of particles that was added is in the simulator once, in order, in the memory and with the configuration of the next commit (or of the end of its
builder), and the model with its number is that configuration. -/
theorem setup_exact (scenes : List (List (List (Op α)) × List β)) :
    (simOf scenes).particles = (allSets scenes).map (fun e => particlesOf e.1 e.2.1 e.2.2) ∧
      (simOf scenes).models = (allSets scenes).zipIdx.map fun e => (e.1.1, e.2) := by
  obtain ⟨h1, h2, h3⟩ := simOf_eq scenes ⟨[], [], []⟩ (by simp)
  refine ⟨h1, ?_⟩
  have hl : (simOf scenes).particles.length = (allSets scenes).length := by rw [simOf, h1]; simp
  have hm : (simOf scenes).models.length = (allSets scenes).length := by
    have := congrArg List.length h2
    simpa [simOf] using this
  refine List.ext_getElem (by simp [hm]) fun i hi hi' => ?_
  have e1 : ((simOf scenes).models.map Prod.fst)[i]'(by simpa using hi) = ((allSets scenes).map fun e => e.1)[i]'(by simp; omega) := by
    simp only [simOf, h2]
    simp
  have e2 : ((simOf scenes).models.map Prod.snd)[i]'(by simpa using hi) = i := by
    simp only [simOf, h3]
    simp
  simp only [List.getElem_map] at e1 e2
  simp only [List.getElem_map, List.getElem_zipIdx, Nat.zero_add]
  exact Prod.ext e1 e2

/-- There is one group per memory that has particles; it lists the sets of particles in this memory, in order and each with its own model, and counts their
particles. -/
theorem groups_exact (scenes : List (List (List (Op α)) × List β)) :
    ((groups (simOf scenes)).map Group.loc).Nodup ∧
      (∀ loc, loc ∈ (groups (simOf scenes)).map Group.loc ↔ ∃ p ∈ (simOf scenes).particles, p.loc = loc) ∧
      ∀ g ∈ groups (simOf scenes), g.num = ((placed (simOf scenes).particles g.loc).map fun p => p.1.x.length).sum ∧
        g.objs = (placed (simOf scenes).particles g.loc).map (fun p => (p.2, p.2)) := by
  obtain ⟨-, -, h3⟩ := simOf_eq scenes ⟨[], [], []⟩ (by simp)
  have h := groupsFrom_inv h3 (simOf scenes).particles (l := []) (gs := []) ⟨by simp, by simp, by simp, by simp⟩ (by simp [simOf])
  rw [List.nil_append] at h
  exact ⟨h.nodup, h.locs, fun g hg => ⟨h.num g hg, h.objs g hg⟩⟩

/-- Every set of particles is in exactly one group, and there once. -/
theorem group_unique (scenes : List (List (List (Op α)) × List β)) (i : Nat) (hi : i < (simOf scenes).particles.length) :
    (∃! g, g ∈ groups (simOf scenes) ∧ (i, i) ∈ g.objs) ∧ ∀ g ∈ groups (simOf scenes), g.objs.Nodup := by
  obtain ⟨h1, h2, h3⟩ := groups_exact scenes
  generalize (simOf scenes).particles = l at *
  have hmem : ∀ loc, (i, i) ∈ (placed l loc).map (fun p => (p.2, p.2)) ↔ (l[i]).loc = loc := by
    intro loc
    simp only [List.mem_map, placed, List.mem_filter, decide_eq_true_eq, Prod.mk.injEq, and_self, Prod.exists, List.mk_mem_zipIdx_iff_getElem?]
    constructor
    · rintro ⟨p, j, ⟨hp, hl⟩, rfl⟩
      rw [List.getElem?_eq_getElem hi] at hp
      cases hp
      exact hl
    · intro e
      exact ⟨l[i], i, ⟨List.getElem?_eq_getElem hi, e⟩, rfl⟩
  refine ⟨?_, fun g hg => ?_⟩
  · obtain ⟨g, hg, e⟩ := List.mem_map.1 ((h2 (l[i]).loc).2 ⟨_, List.getElem_mem hi, rfl⟩)
    refine ⟨g, ⟨hg, by rw [(h3 g hg).2, hmem, e]⟩, ?_⟩
    rintro g' ⟨hg', k⟩
    rw [(h3 g' hg').2, hmem] at k
    exact List.inj_on_of_nodup_map h1 hg' hg (by rw [← k, e])
  · rw [(h3 g hg).2]
    have hz : ((l.zipIdx.filter fun p => p.1.loc = g.loc).map Prod.snd).Nodup := by
      refine List.Nodup.sublist (List.filter_sublist.map Prod.snd) ?_
      rw [List.zipIdx_map_snd]
      exact List.nodup_range'
    have e : (placed l g.loc).map (fun p => (p.2, p.2)) = ((l.zipIdx.filter fun p => p.1.loc = g.loc).map Prod.snd).map fun i => (i, i) := by
      simp [placed]
    rw [e]
    exact hz.map fun a b k => (Prod.mk.inj k).1

/-- Two builders, one with two memories. -/
example : (groups (simOf (α := Nat) (β := Unit) [([[.add [1, 2], .commit (1, 0), .add [3], .add []], [.model .nacc, .add [4, 5, 6], .commit (1, 0)]], [])])).map
    (fun g => (g.loc, g.num, g.objs)) = [((1, 0), 5, [(0, 0), (2, 2)]), ((0, -1), 1, [(1, 1)])] := by
  simp [simOf, sceneOf, particle, session, commitAll, Scene.empty, addScene, groups, groupsFrom, put, searchModel, particlesOf, configure, setModel, Config.default, host,
    List.findIdx?_cons]

/-- The attributes of a new set of particles.
Missing: Drucker-Prager, see `plasticity_violated`. -/
theorem attributes_partial (c : Config) (dst : Loc) (xs : List α) (hc : c.kind ≠ .druckerPrager) :
    (particlesOf c dst xs).x = xs ∧ (particlesOf c dst xs).loc = dst ∧ (particlesOf c dst xs).m = List.replicate xs.length (c.rho * c.volume) ∧
      ((particlesOf c dst xs).F = true ↔ c.kind ≠ .equationOfState) ∧ ((particlesOf c dst xs).J = true ↔ c.kind = .equationOfState) ∧
      (particlesOf c dst xs).logJp = if c.kind = .nacc then some (List.replicate xs.length c.logJp0) else none := by
  obtain ⟨k, r, v, E, nu, l⟩ := c
  cases k <;> simp [particlesOf, hasF, hasPlasticity, Kind.index, CM.value] at hc ⊢

/-- Particles of Drucker-Prager get no `logJp`: the index of the variant, which has no alternative for `StvkWithHencky`, is compared with the enumerator. -/
theorem plasticity_violated (c : Config) (hc : c.kind = .druckerPrager) (dst : Loc) (xs : List α) : (particlesOf c dst xs).logJp = none := by
  simp [particlesOf, hasPlasticity, hc, Kind.index, CM.value]

/-- End to end: a user who asks for Drucker-Prager with a `logjp0`. -/
theorem plasticity_scene_violated (x : α) (v : ℝ) :
    ((simOf (β := β) [([[.model .druckerPrager, .logjp0 v, .add [x], .commit host]], [])]).particles.map fun p => (p.x, p.logJp)) = [([x], none)] ∧
      ((simOf (β := β) [([[.model .druckerPrager, .logjp0 v, .add [x], .commit host]], [])]).models.map fun m => (m.1.kind, m.1.logJp0)) = [(.druckerPrager, v)] := by
  simp [simOf, sceneOf, particle, session, commitAll, Scene.empty, addScene, particlesOf, configure, setModel, Config.default, hasPlasticity, Kind.index, CM.value]

/-- The boundaries are those of the last scene.
Missing: the boundaries of the other scenes, see `boundaries_violated`. -/
theorem boundaries_partial (scenes : List (List (List (Op α)) × List β)) (s : List (List (Op α)) × List β) : (simOf (scenes ++ [s])).boundaries = s.2 := by
  simp [simOf, addScene, sceneOf]

/-- A second scene removes the boundaries of the first one, even if it has none. -/
theorem boundaries_violated (ops : List (List (Op α))) (b : β) :
    (simOf [(ops, [b])]).boundaries = [b] ∧ (simOf [(ops, [b]), ([], [])]).boundaries = ([] : List β) ∧
      (simOf [(ops, [b]), ([], [])]).particles = (simOf [(ops, [b])]).particles := by
  refine ⟨by simp [simOf, addScene, sceneOf], by simp [simOf, addScene, sceneOf], ?_⟩
  rw [(setup_exact _).1, (setup_exact _).1]
  simp [allSets]

/-- The argument of the root is the square of the speed of pressure waves. -/
theorem speed_exact {E nu rho : ℝ} (h1 : 1 + nu ≠ 0) (h2 : 1 - 2 * nu ≠ 0) (h3 : rho ≠ 0) :
    E * (1 - nu) / ((1 + nu) * (1 - 2 * nu) * rho) = waveSpeedSq E nu rho := by
  unfold waveSpeedSq
  obtain ⟨d, hd⟩ : ∃ d, 1 - 2 * nu = d := ⟨_, rfl⟩
  rw [hd] at h2 ⊢
  field_simp
  linear_combination E * hd

/-- In the time step no pressure wave of a solid goes further than `cfl` cells.
Missing: fluids and slow waves, see `dt_fluid_violated` and `dt_slow_violated`. -/
theorem dt_stable_partial (fuel : Nat) {eps relTol big dx cfl : ℝ} (h0 : 0 < eps) (hc : 0 ≤ cfl * dx) (models : List (Config × Nat)) {m : Config × Nat} (hm : m ∈ models)
    (hk : m.1.kind ≠ .equationOfState) (h1 : 1 + m.1.nu ≠ 0) (h2 : 1 - 2 * m.1.nu ≠ 0) (h3 : m.1.rho ≠ 0) (hs : eps ≤ waveSpeedSq m.1.E m.1.nu m.1.rho) {x : ℝ}
    (hx : soundSpeed fuel eps relTol m.1.E m.1.nu m.1.rho = .val x) :
    evaluatedDt fuel eps relTol big dx cfl models * Real.sqrt (waveSpeedSq m.1.E m.1.nu m.1.rho) ≤ cfl * dx := by
  have hx' := hx
  unfold soundSpeed at hx'
  rw [speed_exact h1 h2 h3] at hx'
  obtain ⟨x0, k, -, -⟩ := sqrt_close h0 hs hx'
  have ht : timestep fuel eps relTol m.1.E m.1.nu m.1.rho dx cfl = some (cfl * dx / x) := by
    unfold timestep
    rw [hx]
    simp only [if_neg x0.ne']
  have hle := (dt_fold fuel eps relTol dx cfl models big).2.1 m hm hk _ ht
  refine (mul_le_mul_of_nonneg_right hle (Real.sqrt_nonneg _)).trans ?_
  rw [div_mul_eq_mul_div, div_le_iff₀ x0]
  exact mul_le_mul_of_nonneg_left k hc

/-- The time step is not smaller than needed: it is the largest number or that of one of the solids. -/
theorem dt_attained (fuel : Nat) (eps relTol big dx cfl : ℝ) (models : List (Config × Nat)) :
    evaluatedDt fuel eps relTol big dx cfl models ≤ big ∧ (evaluatedDt fuel eps relTol big dx cfl models = big ∨ ∃ m ∈ models, m.1.kind ≠ .equationOfState ∧
      ∃ x, soundSpeed fuel eps relTol m.1.E m.1.nu m.1.rho = .val x ∧ evaluatedDt fuel eps relTol big dx cfl models * x = cfl * dx) := by
  obtain ⟨h1, -, h3⟩ := dt_fold fuel eps relTol dx cfl models big
  refine ⟨h1, h3.imp_right ?_⟩
  rintro ⟨m, hm, hk, h⟩
  refine ⟨m, hm, hk, ?_⟩
  unfold timestep at h
  cases hs : soundSpeed fuel eps relTol m.1.E m.1.nu m.1.rho with
  | val x =>
    rw [hs] at h
    simp only at h
    split at h
    · cases h
    · rename_i x0
      refine ⟨x, rfl, ?_⟩
      rw [← Option.some.inj h, div_mul_cancel₀ _ x0]
  | nan => rw [hs] at h; cases h
  | running => rw [hs] at h; cases h

/-- The default solid has a time step. -/
example : ∃ x, ∀ fuel, 40 ≤ fuel → soundSpeed fuel (128 * 2⁻¹ ^ 23) 1e-6 (Config.default .neoHookean).E (Config.default .neoHookean).nu (Config.default .neoHookean).rho = .val x := by
  obtain ⟨x, hx⟩ := sqrt_ends (eps := 128 * 2⁻¹ ^ 23) (relTol := 1e-6) (n := (50000 : ℝ) * (1 - 0.4) / ((1 + 0.4) * (1 - 2 * 0.4) * 1000)) (K := 38)
    (by norm_num) (by norm_num) (by
      have : (1e-6 : ℝ) ≤ max ((50000 : ℝ) * (1 - 0.4) / ((1 + 0.4) * (1 - 2 * 0.4) * 1000) * 1e-6) (128 * 2⁻¹ ^ 23) := le_max_of_le_right (by norm_num)
      refine le_trans ?_ (mul_le_mul_of_nonneg_right this (by positivity))
      norm_num)
  exact ⟨x, fun fuel h => by simpa [soundSpeed, Config.default] using hx fuel h⟩

/-- Fluids do not limit the time step. -/
theorem dt_fluid_violated (fuel : Nat) (eps relTol big dx cfl : ℝ) (models : List (Config × Nat)) (h : ∀ m ∈ models, m.1.kind = .equationOfState) :
    evaluatedDt fuel eps relTol big dx cfl models = big := by
  rcases (dt_attained fuel eps relTol big dx cfl models).2 with e | ⟨m, hm, hk, -⟩
  · exact e
  · exact absurd (h m hm) hk

/-- A solid with slow waves does not limit the time step either: its speed is taken to be zero. -/
theorem dt_slow_violated (fuel : Nat) {eps relTol big : ℝ} (h0 : 0 < eps) (hb : 2 / eps < big ^ 2) (hb0 : 0 < big) :
    ∃ m : Config, m.kind = .neoHookean ∧ 0 < waveSpeedSq m.E m.nu m.rho ∧ 1 < big * Real.sqrt (waveSpeedSq m.E m.nu m.rho) ∧
      evaluatedDt fuel eps relTol big 1 1 [(m, 0)] = big := by
  refine ⟨⟨.neoHookean, 1, 1, eps / 2, 0, 0⟩, rfl, ?_, ?_, ?_⟩
  · simp only [waveSpeedSq]; norm_num; exact h0
  · simp only [waveSpeedSq]
    rw [show (eps / 2 * 0 / ((1 + 0) * (1 - 2 * 0)) + 2 * (eps / 2 / (2 * (1 + 0)))) / 1 = eps / 2 by ring]
    have hs := Real.sqrt_pos.2 (show 0 < eps / 2 by linarith)
    have hq := Real.mul_self_sqrt (show 0 ≤ eps / 2 by linarith)
    rw [div_lt_iff₀ h0] at hb
    by_contra hn
    have hn := not_lt.1 hn
    have := mul_le_mul hn hn (mul_pos hb0 hs).le zero_le_one
    nlinarith
  · have : timestep fuel eps relTol (eps / 2) 0 1 1 1 = none := by
      unfold timestep soundSpeed
      rw [(sqrt_rest fuel).2 (by norm_num; linarith) (by norm_num; linarith)]
      simp
    unfold evaluatedDt
    rw [List.foldl_cons, if_neg (fun q => by cases q), this]
    rfl

/-- Room is reserved for one block per eight particles of the group, and none for fewer. -/
theorem blocks_exact (scenes : List (List (List (Op α)) × List β)) (g : Group) (hg : g ∈ groups (simOf scenes)) :
    numBlocks g = ((placed (simOf scenes).particles g.loc).map fun p => p.1.x.length).sum / 8 := by
  rw [numBlocks, ((groups_exact scenes).2.2 g hg).1]

end Verif.MpmSetup
