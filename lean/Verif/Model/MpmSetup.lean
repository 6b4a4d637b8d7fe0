import Mathlib.Data.Real.Basic
import Verif.Model.MathUtils

/-!
Model of the set-up of simulations: `include/zensim/simulation/init/Scene.hpp` and `Scene.cpp` (S), `include/zensim/simulation/mpm/Simulator.cpp` (M),
`include/zensim/physics/SoundSpeedCfl.hpp` (P) and the configurations of `include/zensim/physics/ConstitutiveModel.hpp` (C).

Numbers are real.  The positions of a set of particles (a type parameter `α`) are given; how they are sampled from files and shapes is not part of this model.
-/
namespace Verif.MpmSetup
open Verif.MathUtils

/-- `constitutive_model_e`, C lines 13-22. -/
inductive CM
  | equationOfState | neoHookean | fixedCorotated | stvkWithHencky | vonMises | druckerPrager | nacc
  deriving DecidableEq

/-- The value of the enumerator, C lines 13-22. -/
def CM.value : CM → Nat
  | .equationOfState => 0
  | .neoHookean => 1
  | .fixedCorotated => 2
  | .stvkWithHencky => 3
  | .vonMises => 4
  | .druckerPrager => 5
  | .nacc => 6

/-- The alternatives of `ConstitutiveModelConfig`, C lines 785-787. -/
inductive Kind
  | equationOfState | neoHookean | fixedCorotated | vonMises | druckerPrager | nacc
  deriving DecidableEq

/-- `index()` of the variant, C lines 785-787. -/
def Kind.index : Kind → Nat
  | .equationOfState => 0
  | .neoHookean => 1
  | .fixedCorotated => 2
  | .vonMises => 3
  | .druckerPrager => 4
  | .nacc => 5

/-- The members of the configurations that are read here, C lines 725-765.  `E` and `nu` are only members of solids, `logJp0` only of the last two. -/
structure Config where
  kind : Kind
  rho : ℝ
  volume : ℝ
  E : ℝ
  nu : ℝ
  logJp0 : ℝ

/-- The default member values, C lines 725-765. -/
noncomputable def Config.default (k : Kind) : Config := ⟨k, 1000, 1, 50000, 0.4, if k = .nacc then -0.01 else 0⟩

/-- `setConstitutiveModel`, S `Scene.cpp` lines 101-127. -/
noncomputable def setModel (c : Config) : CM → Config
  | .equationOfState => .default .equationOfState
  | .neoHookean => .default .neoHookean
  | .fixedCorotated => .default .fixedCorotated
  | .vonMises => .default .vonMises
  | .druckerPrager => .default .druckerPrager
  | .nacc => .default .nacc
  | .stvkWithHencky => c

/-- The memory space and the device. -/
abbrev Loc := Nat × Int

/-- `{memsrc_e::host, -1}`. -/
def host : Loc := (0, -1)

/-- A set of particles: the attributes that `commit` fills; a missing one is `none`. -/
structure Particles (α : Type) where
  loc : Loc
  x : List α
  m : List ℝ
  F : Bool
  J : Bool
  logJp : Option (List ℝ)

/-- `Scene`, S `Scene.hpp` lines 15-27; all models of a scene have the tag `Particle`. -/
structure Scene (α β : Type) where
  particles : List (Particles α)
  boundaries : List β
  models : List (Config × Nat)

/-- The calls on a `BuilderForSceneParticle`, S `Scene.hpp` lines 46-95. -/
inductive Op (α : Type)
  | add (xs : List α)
  | model (k : CM)
  | density (v : ℝ)
  | volume (v : ℝ)
  | youngsModulus (v : ℝ)
  | poissonRatio (v : ℝ)
  | logjp0 (v : ℝ)
  | commit (dst : Loc)

/-- The effect of a call on the configuration: the macro of S `Scene.hpp` lines 60-83 writes members that the alternative has. -/
noncomputable def configure {α : Type} (c : Config) : Op α → Config
  | .model k => setModel c k
  | .density v => { c with rho := v }
  | .volume v => { c with volume := v }
  | .youngsModulus v => if c.kind = .equationOfState then c else { c with E := v }
  | .poissonRatio v => if c.kind = .equationOfState then c else { c with nu := v }
  | .logjp0 v => if c.kind = .druckerPrager ∨ c.kind = .nacc then { c with logJp0 := v } else c
  | _ => c

/-- `hasPlasticity`, S `Scene.cpp` lines 149-151: the index of the variant is compared with values of the enumeration. -/
def hasPlasticity (c : Config) : Bool := c.kind.index == CM.druckerPrager.value || c.kind.index == CM.nacc.value

/-- `hasF`, S `Scene.cpp` lines 152-153. -/
def hasF (c : Config) : Bool := c.kind.index != CM.equationOfState.value

/-- The new set of particles, S `Scene.cpp` lines 165-226. -/
noncomputable def particlesOf {α : Type} (c : Config) (dst : Loc) (xs : List α) : Particles α where
  loc := dst
  x := xs
  m := List.replicate xs.length (c.rho * c.volume)
  F := hasF c
  J := !hasF c
  logJp := if hasPlasticity c then
      some (List.replicate xs.length (if c.kind = .druckerPrager ∨ c.kind = .nacc then c.logJp0 else 0))
    else none

/-- The loop of `commit`, S `Scene.cpp` lines 165-227. -/
noncomputable def commitAll {α β : Type} (c : Config) (dst : Loc) : List (List α) → Scene α β → Scene α β
  | [], s => s
  | xs :: r, s =>
    commitAll c dst r { s with models := s.models ++ [(c, s.particles.length)], particles := s.particles ++ [particlesOf c dst xs] }

/-- The calls on a builder, from the sets added so far and the configuration, and then the destructor (S `Scene.hpp` line 48).  Sets without particles are
dropped (S `Scene.cpp` lines 44, 62, 82 and 97). -/
noncomputable def session {α β : Type} : List (List α) → Config → List (Op α) → Scene α β → Scene α β
  | pend, c, [], s => commitAll c host pend s
  | pend, c, .commit dst :: r, s => session [] c r (commitAll c dst pend s)
  | pend, c, .add xs :: r, s => session (if xs.length ≠ 0 then pend ++ [xs] else pend) c r s
  | pend, c, op :: r, s => session pend (configure c op) r s

/-- `particle()` and the life of the builder, S `Scene.cpp` lines 24-26, `Scene.hpp` line 94. -/
noncomputable def particle {α β : Type} (ops : List (Op α)) (s : Scene α β) : Scene α β := session [] (.default .equationOfState) ops s

/-- `Scene::create()`. -/
def Scene.empty {α β : Type} : Scene α β := ⟨[], [], []⟩

/-- The members of `MPMSimulator` that scenes fill. -/
structure Sim (α β : Type) where
  particles : List (Particles α)
  models : List (Config × Nat)
  boundaries : List β

/-- `addScene`, M lines 12-33; the offset does not overflow an int. -/
def addScene {α β : Type} (t : Sim α β) (s : Scene α β) : Sim α β where
  models := t.models ++ s.models.map fun m => (m.1, t.particles.length + m.2)
  particles := t.particles ++ s.particles
  boundaries := s.boundaries

/-- `evaluate_soundspeed_linear_elasticity`, P lines 6-9. -/
noncomputable def soundSpeed (fuel : Nat) (eps relTol E nu rho : ℝ) : Out :=
  sqrtNewtonRaphson fuel eps relTol (E * (1 - nu) / ((1 + nu) * (1 - 2 * nu) * rho))

open Classical in
/-- `evaluate_timestep_linear_elasticity`, P lines 11-15; `none`: not a number, or infinite. -/
noncomputable def timestep (fuel : Nat) (eps relTol E nu rho dx cfl : ℝ) : Option ℝ :=
  match soundSpeed fuel eps relTol E nu rho with
  | .val x => if x = 0 then none else some (cfl * dx / x)
  | _ => none

open Classical in
/-- `evaluatedDt`, M lines 51-64; `big` is the largest number. -/
noncomputable def evaluatedDt (fuel : Nat) (eps relTol big dx cfl : ℝ) (models : List (Config × Nat)) : ℝ :=
  models.foldl (fun dt m =>
    if m.1.kind = .equationOfState then dt
    else match timestep fuel eps relTol m.1.E m.1.nu m.1.rho dx cfl with
      | some v => if v < dt then v else dt
      | none => dt) big

/-- `searchModel`, M lines 65-72; the result -1 is stored as an unsigned number. -/
def searchModel (models : List (Config × Nat)) (obj : Nat) : Nat := (models.findIdx? fun m => m.2 == obj).getD (2 ^ 64 - 1)

/-- An entry of each of `memDsts`, `numParticles` and `groups`, which grow together. -/
structure Group where
  loc : Loc
  num : Nat
  objs : List (Nat × Nat)

/-- The body of the loop over the particles with `searchHandle`, M lines 46-50 and 77-88. -/
def put (mid id n : Nat) (loc : Loc) : List Group → List Group
  | [] => [⟨loc, n, [(mid, id)]⟩]
  | g :: gs => if g.loc = loc then ⟨g.loc, g.num + n, g.objs ++ [(mid, id)]⟩ :: gs else g :: put mid id n loc gs

/-- The loop over the particles, M lines 73-90. -/
def groupsFrom {α : Type} (models : List (Config × Nat)) : Nat → List Group → List (Particles α) → List Group
  | _, gs, [] => gs
  | id, gs, p :: ps => groupsFrom models (id + 1) (put (searchModel models id) id p.x.length p.loc gs) ps

/-- The groups of the simulator. -/
def groups {α β : Type} (t : Sim α β) : List Group := groupsFrom t.models 0 [] t.particles

/-- `numBlocks`, M lines 103-104. -/
def numBlocks (g : Group) : Nat := g.num / 8

end Verif.MpmSetup
