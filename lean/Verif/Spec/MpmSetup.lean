import Verif.Model.MpmSetup

/-!
Specification of the set-up of simulations: what becomes of every set of particles that was added, without the order in which things are stored meanwhile.
-/
namespace Verif.MpmSetup

/-- The configuration and the place of a set of particles: those of the next commit, or of the end of the builder. -/
noncomputable def next {α : Type} (c : Config) : List (Op α) → Config × Loc
  | [] => (c, host)
  | .commit dst :: _ => (c, dst)
  | op :: r => next (configure c op) r

/-- The sets of particles of a sequence of calls, in order, with what they get. -/
noncomputable def expected {α : Type} (c : Config) : List (Op α) → List (Config × Loc × List α)
  | [] => []
  | .add xs :: r => (if xs = [] then [] else [((next c r).1, (next c r).2, xs)]) ++ expected c r
  | op :: r => expected (configure c op) r

/-- A scene from the calls on the builders of its particles, and its boundaries. -/
noncomputable def sceneOf {α β : Type} (ss : List (List (Op α)) × List β) : Scene α β :=
  { ss.1.foldl (fun (s : Scene α β) ops => particle ops s) Scene.empty with boundaries := ss.2 }

/-- A simulator from its scenes. -/
noncomputable def simOf {α β : Type} (scenes : List (List (List (Op α)) × List β)) : Sim α β := scenes.foldl (fun t ss => addScene t (sceneOf ss)) ⟨[], [], []⟩

/-- All sets of particles of all scenes. -/
noncomputable def allSets {α β : Type} (scenes : List (List (List (Op α)) × List β)) : List (Config × Loc × List α) :=
  scenes.flatMap fun ss => ss.1.flatMap (expected (.default .equationOfState))

/-- The speed of pressure waves in a linear elastic material is the root of (λ + 2 μ) / ρ with the parameters of Lamé. -/
noncomputable def waveSpeedSq (E nu rho : ℝ) : ℝ := (E * nu / ((1 + nu) * (1 - 2 * nu)) + 2 * (E / (2 * (1 + nu)))) / rho

/-- The sets of particles in a place, with their numbers. -/
def placed {α : Type} (l : List (Particles α)) (loc : Loc) : List (Particles α × Nat) := l.zipIdx.filter fun p => p.1.loc = loc

end Verif.MpmSetup
