import Verif.Proof.Krylov
import Mathlib.Tactic.Positivity
import Mathlib.Tactic.FieldSimp

/-!
Conjugate gradients follow the recurrence.
-/
namespace Verif.Krylov

variable {n : Nat}

theorem dot_comm (a b : Vec n) : dot a b = dot b a := by
  unfold dot; exact Finset.sum_congr rfl fun i _ => mul_comm _ _

theorem dot_add (a b c : Vec n) : dot a (b + c) = dot a b + dot a c := by
  unfold dot; rw [← Finset.sum_add_distrib]; exact Finset.sum_congr rfl fun i _ => by simp [mul_add]

theorem dot_smul (m : ℝ) (a b : Vec n) : dot a (m • b) = m * dot a b := by
  unfold dot; rw [Finset.mul_sum]; exact Finset.sum_congr rfl fun i _ => by simp; ring

theorem dot_self_nonneg (a : Vec n) : 0 ≤ dot a a := Finset.sum_nonneg fun i _ => mul_self_nonneg _

theorem comb_eq (m : ℝ) (a b : Vec n) : comb m a b = m • a + b := rfl

/-- The inner product as a bilinear map. -/
def dotL (n : Nat) : Vec n →ₗ[ℝ] Vec n →ₗ[ℝ] ℝ :=
  LinearMap.mk₂ ℝ dot (fun a b c => by rw [dot_comm, dot_add, dot_comm c, dot_comm c]) (fun m a b => by rw [dot_comm, dot_smul, dot_comm b, smul_eq_mul])
    (fun a b c => dot_add a b c) (fun m a b => by rw [dot_smul, smul_eq_mul])

theorem dotL_apply (a b : Vec n) : dotL n a b = dot a b := rfl

/-- One iteration without the tests of the divisors. -/
noncomputable def cgNext (S : System n) (s : Cg n) : Cg n :=
  let temp := S.project (S.multiply s.p)
  let alpha := s.zTrk / dot temp s.p
  let r := comb (-alpha) temp s.r
  let q := S.precondition r
  ⟨comb alpha s.p s.x, r, comb (dot q r / s.zTrk) s.p q, dot q r⟩

theorem cgStep_eq (S : System n) (s : Cg n) (h1 : dot (S.project (S.multiply s.p)) s.p ≠ 0) (h2 : s.zTrk ≠ 0) : cgStep S s = some (cgNext S s) := by
  unfold cgStep cgNext
  simp only [h1, h2, if_false]

theorem cgNext_r (A P M : Vec n →ₗ[ℝ] Vec n) (s : Cg n) : (cgNext (sys A P M) s).r = -(s.zTrk / dot (P (A s.p)) s.p) • P (A s.p) + s.r := rfl

theorem cgNext_x (A P M : Vec n →ₗ[ℝ] Vec n) (s : Cg n) : (cgNext (sys A P M) s).x = (s.zTrk / dot (P (A s.p)) s.p) • s.p + s.x := rfl

theorem cgNext_p (A P M : Vec n →ₗ[ℝ] Vec n) (s : Cg n) :
    (cgNext (sys A P M) s).p = ((cgNext (sys A P M) s).zTrk / s.zTrk) • s.p + M (cgNext (sys A P M) s).r := rfl

noncomputable def cgSeq (A P M : Vec n →ₗ[ℝ] Vec n) (x b : Vec n) (k : Nat) : Cg n := (cgNext (sys A P M))^[k] (cgInit (sys A P M) x b)

theorem cgSeq_succ (A P M : Vec n →ₗ[ℝ] Vec n) (x b : Vec n) (k : Nat) :
    cgSeq A P M x b (k + 1) = cgNext (sys A P M) (cgSeq A P M x b k) := Function.iterate_succ_apply' _ _ _

structure CgInv (A P M : Vec n →ₗ[ℝ] Vec n) (x b : Vec n) (s : Cg n) : Prop where
  Pr : P s.r = s.r
  Pp : P s.p = s.p
  zT : s.zTrk = dot s.r (M s.r)
  res : s.r = P (b - A s.x)
  Px : P (s.x - x) = s.x - x

theorem cgInv {A P M : Vec n →ₗ[ℝ] Vec n} (g : Good A P M) (x b : Vec n) (k : Nat) : CgInv A P M x b (cgSeq A P M x b k) := by
  induction k with
  | zero =>
    have e : (cgSeq A P M x b 0).r = P (b - A x) := rfl
    have hP : P (cgSeq A P M x b 0).r = (cgSeq A P M x b 0).r := by rw [e, g.idemP]
    exact ⟨hP, g.rangeM _ hP, rfl, e, by simp [cgSeq, cgInit]⟩
  | succ k ih =>
    rw [cgSeq_succ]
    set s := cgSeq A P M x b k
    set a := s.zTrk / dot (P (A s.p)) s.p with ha
    have er : (cgNext (sys A P M) s).r = -a • P (A s.p) + s.r := rfl
    have ex : (cgNext (sys A P M) s).x = a • s.p + s.x := rfl
    have hP : P (cgNext (sys A P M) s).r = (cgNext (sys A P M) s).r := by rw [er, map_add, map_smul, g.idemP, ih.Pr]
    refine ⟨hP, ?_, ?_, ?_, ?_⟩
    · show P (comb _ s.p (M (cgNext (sys A P M) s).r)) = comb _ s.p (M (cgNext (sys A P M) s).r)
      rw [comb_eq, map_add, map_smul, ih.Pp, g.rangeM _ hP]
    · exact dot_comm _ _
    · rw [er, ex, ih.res]
      simp only [map_add, map_sub, map_smul]
      module
    · rw [ex]
      have : a • s.p + s.x - x = a • s.p + (s.x - x) := by module
      rw [this, map_add, map_smul, ih.Pp, ih.Px]

/-- P A P and P M P. -/
def cgT (A P : Vec n →ₗ[ℝ] Vec n) : Vec n →ₗ[ℝ] Vec n := P ∘ₗ A ∘ₗ P

theorem sym_cgT {A P M : Vec n →ₗ[ℝ] Vec n} (g : Good A P M) (u v : Vec n) : dot (cgT A P u) v = dot u (cgT A P v) := by
  simp only [cgT, LinearMap.comp_apply]; rw [g.symP, g.symA, g.symP]

theorem sym_cgN {A P M : Vec n →ₗ[ℝ] Vec n} (g : Good A P M) (u v : Vec n) : dot (cgT M P u) v = dot u (cgT M P v) := by
  simp only [cgT, LinearMap.comp_apply]; rw [g.symP, g.symM, g.symP]

theorem cgN_eq {A P M : Vec n →ₗ[ℝ] Vec n} (g : Good A P M) {u : Vec n} (h : P u = u) : cgT M P u = M u := by
  simp only [cgT, LinearMap.comp_apply]; rw [h, g.rangeM u h]

theorem cgT_eq {A P : Vec n →ₗ[ℝ] Vec n} {u : Vec n} (h : P u = u) : cgT A P u = P (A u) := by
  simp only [cgT, LinearMap.comp_apply]; rw [h]

theorem pos_temp {A P M : Vec n →ₗ[ℝ] Vec n} (g : Good A P M) {u : Vec n} (h : P u = u) (hu : u ≠ 0) : 0 < dot (P (A u)) u := by
  rw [g.symP, h, dot_comm]; exact g.posA u h hu

theorem ne_of_dot {u v : Vec n} (h : dot u v ≠ 0) : v ≠ 0 := by
  rintro rfl; exact h (by simp [dot])

theorem cgRec {A P M : Vec n →ₗ[ℝ] Vec n} (g : Good A P M) (x b : Vec n) (K : Nat) (nz : ∀ k < K, (cgSeq A P M x b k).zTrk ≠ 0) :
    Rec (dotL n) (cgT A P) (cgT M P) (fun k => (cgSeq A P M x b k).r) (fun k => (cgSeq A P M x b k).p)
      (fun k => (cgSeq A P M x b k).zTrk / dot (P (A (cgSeq A P M x b k).p)) (cgSeq A P M x b k).p)
      (fun k => (cgSeq A P M x b (k + 1)).zTrk / (cgSeq A P M x b k).zTrk)
      (fun k => (cgSeq A P M x b k).zTrk) K where
  symI := dot_comm
  symT := sym_cgT g
  symN := sym_cgN g
  p0 := by
    have := (cgInv g x b 0).Pr
    simp only [cgN_eq g this]; rfl
  hr k _ := by
    simp only [cgT_eq (cgInv g x b k).Pp]
    rw [cgSeq_succ, cgNext_r]
    module
  hp k _ := by
    simp only [cgN_eq g (cgInv g x b (k + 1)).Pr]
    rw [cgSeq_succ, cgNext_p, add_comm]
  hρ k _ := by
    simp only [cgN_eq g (cgInv g x b k).Pr]
    exact (cgInv g x b k).zT
  hα k hk h := by
    simp only [cgT_eq (cgInv g x b k).Pp]
    simp only [dotL_apply] at h ⊢
    have hp : (cgSeq A P M x b k).p ≠ 0 := ne_of_dot (u := (cgSeq A P M x b k).r) (by rw [h]; exact nz k hk)
    exact div_mul_cancel₀ _ (pos_temp g (cgInv g x b k).Pp hp).ne'
  hβ k hk := div_mul_cancel₀ _ (nz k hk)
  nz := nz

theorem cgStep_seq {A P M : Vec n →ₗ[ℝ] Vec n} (g : Good A P M) (x b : Vec n) (K : Nat) (nz : ∀ k ≤ K, (cgSeq A P M x b k).zTrk ≠ 0) :
    cgStep (sys A P M) (cgSeq A P M x b K) = some (cgSeq A P M x b (K + 1)) := by
  have h := ((cgRec g x b K fun k hk => nz k hk.le).conj K le_rfl).1
  rw [cgSeq_succ]
  refine cgStep_eq _ _ ?_ (nz K le_rfl)
  have hp : (cgSeq A P M x b K).p ≠ 0 := ne_of_dot (u := (cgSeq A P M x b K).r) (by
    simp only [dotL_apply] at h; rw [h]; exact nz K le_rfl)
  exact (pos_temp g (cgInv g x b K).Pp hp).ne'

theorem cgLoop_seq {A P M : Vec n →ₗ[ℝ] Vec n} (g : Good A P M) (x b : Vec n) {t : ℝ} (ht : 0 ≤ t) :
    ∀ k j, (∀ i < j, t < Real.sqrt (cgSeq A P M x b i).zTrk) → ∃ m ≤ k, cgLoop (sys A P M) t k (cgSeq A P M x b j) = some (m, cgSeq A P M x b (j + m)) ∧
      (∀ i < j + m, t < Real.sqrt (cgSeq A P M x b i).zTrk) ∧ (m = k ∨ Real.sqrt (cgSeq A P M x b (j + m)).zTrk ≤ t) := by
  intro k
  induction k with
  | zero => intro j hj; exact ⟨0, le_rfl, rfl, by simpa using hj, Or.inl rfl⟩
  | succ k ih =>
    intro j hj
    by_cases hs : Real.sqrt (cgSeq A P M x b j).zTrk ≤ t
    · exact ⟨0, by omega, by rw [cgLoop, if_pos hs]; rfl, by simpa using hj, Or.inr (by simpa using hs)⟩
    · have hj' : ∀ i < j + 1, t < Real.sqrt (cgSeq A P M x b i).zTrk := by
        intro i hi
        rcases Nat.lt_succ_iff_lt_or_eq.1 hi with hi | rfl
        · exact hj i hi
        · exact not_le.1 hs
      obtain ⟨m, hm, e, h1, h2⟩ := ih (j + 1) hj'
      have st := cgStep_seq g x b j (fun i hi => (Real.sqrt_pos.1 (ht.trans_lt (hj' i (by omega)))).ne')
      refine ⟨m + 1, by omega, ?_, ?_, ?_⟩
      · rw [cgLoop, if_neg hs, st, Option.bind_some, e, Option.map_some]
        have : j + 1 + m = j + (m + 1) := by omega
        rw [this]
      · intro i hi; exact h1 i (by omega)
      · rcases h2 with h2 | h2
        · left; omega
        · right; have : j + (m + 1) = j + 1 + m := by omega
          rw [this]; exact h2

theorem zTrk_nonneg {A P M : Vec n →ₗ[ℝ] Vec n} (g : Good A P M) (x b : Vec n) (k : Nat) : 0 ≤ (cgSeq A P M x b k).zTrk := by
  rw [(cgInv g x b k).zT]
  by_cases h : (cgSeq A P M x b k).r = 0
  · rw [h]; simp [dot]
  · exact (g.posM _ (cgInv g x b k).Pr h).le

theorem cg_card {A P M : Vec n →ₗ[ℝ] Vec n} (g : Good A P M) (x b : Vec n) (K : Nat) (nz : ∀ k < K, (cgSeq A P M x b k).zTrk ≠ 0) :
    K ≤ Module.finrank ℝ (LinearMap.range P) :=
  (cgRec g x b K nz).card_le _ fun k _ => ⟨_, (cgInv g x b k).Pr⟩

theorem cg_x_mem {A P M : Vec n →ₗ[ℝ] Vec n} (x b : Vec n) (k : Nat) :
    (cgSeq A P M x b k).x - x ∈ dirs (fun k => (cgSeq A P M x b k).p) k := by
  induction k with
  | zero =>
    have : (cgSeq A P M x b 0).x - x = 0 := by simp [cgSeq, cgInit]
    rw [this]; exact Submodule.zero_mem _
  | succ k ih =>
    rw [cgSeq_succ]
    set s := cgSeq A P M x b k with hs
    have ex : (cgNext (sys A P M) s).x - x = (s.zTrk / dot (P (A s.p)) s.p) • s.p + (s.x - x) := by
      rw [cgNext_x]
      module
    rw [ex]
    exact Submodule.add_mem _ (Submodule.smul_mem _ _ (mem_dirs (p := fun k => (cgSeq A P M x b k).p) (Nat.lt_succ_self k))) (dirs_mono (by omega) ih)

/-- The Krylov space lies in the span of the directions. -/
theorem krylov_le {A P M : Vec n →ₗ[ℝ] Vec n} (g : Good A P M) {r : Vec n} (hr : P r = r) {p : Nat → Vec n} {k : Nat} {T N : Vec n →ₗ[ℝ] Vec n}
    (hN : ∀ u, P u = u → N (T u) = M (P (A u))) (h0 : ∀ j < k, (fun u => N (T u))^[j] (M r) ∈ dirs p (j + 1)) :
    krylov A P M r k ≤ dirs p k := by
  unfold krylov
  rw [Submodule.span_le]
  rintro v ⟨j, hj, rfl⟩
  have : ∀ j, (fun u => M (P (A u)))^[j] (M r) = (fun u => N (T u))^[j] (M r) ∧ P ((fun u => N (T u))^[j] (M r)) = (fun u => N (T u))^[j] (M r) := by
    intro j
    induction j with
    | zero => exact ⟨rfl, g.rangeM r hr⟩
    | succ j ih =>
      rw [Function.iterate_succ_apply', Function.iterate_succ_apply', ih.1, hN _ ih.2]
      exact ⟨rfl, g.rangeM _ (g.idemP _)⟩
  rw [(this j).1]
  exact dirs_mono (by omega) (h0 j hj)

theorem energy_sub {A P M : Vec n →ₗ[ℝ] Vec n} (g : Good A P M) (b y w : Vec n) (hw : P w = w) (ho : dot (P (b - A y)) w = 0) :
    energy A b y ≤ energy A b (y + w) := by
  have e : energy A b (y + w) = energy A b y + dot w (A w) / 2 - dot (b - A y) w := by
    unfold energy
    have h1 : dot w (A y) = dot (A y) w := dot_comm _ _
    have h2 : dot y (A w) = dot (A y) w := (g.symA y w).symm
    have h3 : dot (y + w) (A (y + w)) = dot y (A y) + dot y (A w) + (dot w (A y) + dot w (A w)) := by
      rw [map_add, dot_add, dot_comm, dot_add, dot_comm (A y) y, dot_comm (y + w), dot_add, dot_comm (A w) y, dot_comm (A w) w, dot_comm (A y) w]; ring
    have h4 : dot (b - A y) w = dot b w - dot (A y) w := by
      rw [← dotL_apply, map_sub]; rfl
    rw [h3, dot_add, h4, h1, h2]; ring
  have ho' : dot (b - A y) w = 0 := by rw [← ho, g.symP, hw]
  rw [e, ho']
  have : 0 ≤ dot w (A w) := by
    by_cases h : w = 0
    · subst h; simp [dot]
    · exact (g.posA w hw h).le
  linarith

theorem dirs_P {P : Vec n →ₗ[ℝ] Vec n} {p : Nat → Vec n} (h : ∀ i, P (p i) = p i) {k : Nat} {w : Vec n} (hw : w ∈ dirs p k) : P w = w := by
  induction hw using Submodule.span_induction with
  | mem v hv => obtain ⟨i, _, rfl⟩ := hv; exact h i
  | zero => simp
  | add a b _ _ ha hb => rw [map_add, ha, hb]
  | smul c a _ ha => rw [map_smul, ha]

theorem cg_optimal_seq {A P M : Vec n →ₗ[ℝ] Vec n} (g : Good A P M) (x b : Vec n) (k : Nat) (nz : ∀ i < k, (cgSeq A P M x b i).zTrk ≠ 0)
    (w : Vec n) (hw : w ∈ krylov A P M (P (b - A x)) k) : energy A b (cgSeq A P M x b k).x ≤ energy A b (x + w) := by
  have rc := cgRec g x b k nz
  have r0 : P (P (b - A x)) = P (b - A x) := g.idemP _
  have hN : ∀ u, P u = u → cgT M P (cgT A P u) = M (P (A u)) := by
    intro u hu; rw [cgT_eq (A := A) hu, cgN_eq g (g.idemP _)]
  have hw' : w ∈ dirs (fun k => (cgSeq A P M x b k).p) k := by
    refine krylov_le g r0 (T := cgT A P) (N := cgT M P) hN ?_ hw
    intro j hj
    have := rc.iter_mem j hj
    rw [cgN_eq g (cgInv g x b 0).Pr] at this
    exact this
  set d := x + w - (cgSeq A P M x b k).x with hd
  have hdm : d ∈ dirs (fun k => (cgSeq A P M x b k).p) k := by
    have : d = w - ((cgSeq A P M x b k).x - x) := by rw [hd]; module
    rw [this]; exact Submodule.sub_mem _ hw' (cg_x_mem x b k)
  have : x + w = (cgSeq A P M x b k).x + d := by rw [hd]; module
  rw [this]
  refine energy_sub g b _ d (dirs_P (fun i => (cgInv g x b i).Pp) hdm) ?_
  rw [← (cgInv g x b k).res]
  exact rc.ortho d hdm

end Verif.Krylov
