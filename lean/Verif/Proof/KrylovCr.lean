import Verif.Proof.KrylovCg

/-!
Conjugate residuals follow the recurrence in the inner product of A.
-/
namespace Verif.Krylov

variable {n : Nat}

/-- The value rAr of a state. -/
def rho (A P : Vec n →ₗ[ℝ] Vec n) (s : Cr n) : ℝ := dot s.r (P (A s.r))

/-- One iteration, from the update of p to the next update of p. -/
noncomputable def crNext (A P M : Vec n →ₗ[ℝ] Vec n) (s : Cr n) : Cr n :=
  let alpha := rho A P s / dot (M s.Ap) s.Ap
  let r := comb (-alpha) (M s.Ap) s.r
  let beta := dot r (P (A r)) / rho A P s
  ⟨comb alpha s.p s.x, comb (-alpha) s.Ap s.rr, r, comb beta s.p r, comb beta s.Ap (P (A r)), rho A P s⟩

noncomputable def crSeq (A P M : Vec n →ₗ[ℝ] Vec n) (x b : Vec n) (k : Nat) : Cr n := (crNext A P M)^[k] (crInit (sys A P M) x b)

theorem crSeq_succ (A P M : Vec n →ₗ[ℝ] Vec n) (x b : Vec n) (k : Nat) :
    crSeq A P M x b (k + 1) = crNext A P M (crSeq A P M x b k) := Function.iterate_succ_apply' _ _ _

/-- The state at the head of the loop: p and Ap are not updated yet. -/
noncomputable def crHead (A P M : Vec n →ₗ[ℝ] Vec n) (x b : Vec n) : Nat → Cr n
  | 0 => crSeq A P M x b 0
  | k + 1 => { crSeq A P M x b (k + 1) with p := (crSeq A P M x b k).p, Ap := (crSeq A P M x b k).Ap }

section
variable (A P M : Vec n →ₗ[ℝ] Vec n) (s : Cr n)

theorem crNext_r : (crNext A P M s).r = -(rho A P s / dot (M s.Ap) s.Ap) • M s.Ap + s.r := rfl
theorem crNext_rr : (crNext A P M s).rr = -(rho A P s / dot (M s.Ap) s.Ap) • s.Ap + s.rr := rfl
theorem crNext_x : (crNext A P M s).x = (rho A P s / dot (M s.Ap) s.Ap) • s.p + s.x := rfl
theorem crNext_p : (crNext A P M s).p = (rho A P (crNext A P M s) / rho A P s) • s.p + (crNext A P M s).r := rfl
theorem crNext_Ap : (crNext A P M s).Ap = (rho A P (crNext A P M s) / rho A P s) • s.Ap + P (A (crNext A P M s).r) := rfl
end

structure CrInv (A P M : Vec n →ₗ[ℝ] Vec n) (x b : Vec n) (s : Cr n) : Prop where
  Prr : P s.rr = s.rr
  Pp : P s.p = s.p
  hr : s.r = M s.rr
  hAp : s.Ap = P (A s.p)
  res : s.rr = P (b - A s.x)
  Px : P (s.x - x) = s.x - x

theorem CrInv.Pr {A P M : Vec n →ₗ[ℝ] Vec n} (g : Good A P M) {x b : Vec n} {s : Cr n} (h : CrInv A P M x b s) : P s.r = s.r := by
  rw [h.hr, g.rangeM _ h.Prr]

theorem crInv {A P M : Vec n →ₗ[ℝ] Vec n} (g : Good A P M) (hA : ∀ u, P u = u → P (A u) = A u) (x b : Vec n) (k : Nat) :
    CrInv A P M x b (crSeq A P M x b k) := by
  induction k with
  | zero =>
    have e : (crSeq A P M x b 0).rr = P (b - A x) := rfl
    have hP : P (crSeq A P M x b 0).rr = (crSeq A P M x b 0).rr := by rw [e, g.idemP]
    have hM := g.rangeM _ hP
    exact ⟨hP, hM, rfl, (hA _ hM).symm, e, by simp [crSeq, crInit]⟩
  | succ k ih =>
    rw [crSeq_succ]
    set s := crSeq A P M x b k
    have hP : P (crNext A P M s).rr = (crNext A P M s).rr := by rw [crNext_rr, map_add, map_smul, ih.Prr, ih.hAp, g.idemP]
    have hr : (crNext A P M s).r = M (crNext A P M s).rr := by rw [crNext_r, crNext_rr, map_add, map_smul, ih.hr]
    have Pr : P (crNext A P M s).r = (crNext A P M s).r := by rw [hr, g.rangeM _ hP]
    refine ⟨hP, ?_, hr, ?_, ?_, ?_⟩
    · rw [crNext_p, map_add, map_smul, ih.Pp, Pr]
    · rw [crNext_Ap, crNext_p, map_add, map_add, map_smul, map_smul, ← ih.hAp]
    · rw [crNext_rr, crNext_x, ih.hAp]
      conv_lhs => rw [ih.res]
      simp only [map_add, map_sub, map_smul]
      module
    · rw [crNext_x]
      generalize rho A P s / dot (M s.Ap) s.Ap = a
      have : a • s.p + s.x - x = a • s.p + (s.x - x) := by module
      rw [this, map_add, map_smul, ih.Pp, ih.Px]

/-- The inner product of P A P. -/
def ipA (A P : Vec n →ₗ[ℝ] Vec n) : Vec n →ₗ[ℝ] Vec n →ₗ[ℝ] ℝ := (dotL n).compl₂ (cgT A P)

theorem ipA_apply (A P : Vec n →ₗ[ℝ] Vec n) (u v : Vec n) : ipA A P u v = dot u (cgT A P v) := rfl

theorem pos_M {A P M : Vec n →ₗ[ℝ] Vec n} (g : Good A P M) {u : Vec n} (h : P u = u) (hu : u ≠ 0) : 0 < dot (M u) u := by
  rw [dot_comm]; exact g.posM u h hu

theorem crRec {A P M : Vec n →ₗ[ℝ] Vec n} (g : Good A P M) (hA : ∀ u, P u = u → P (A u) = A u) (x b : Vec n) (K : Nat)
    (nz : ∀ k < K, rho A P (crSeq A P M x b k) ≠ 0) :
    Rec (ipA A P) (cgT M P ∘ₗ cgT A P) LinearMap.id (fun k => (crSeq A P M x b k).r) (fun k => (crSeq A P M x b k).p)
      (fun k => rho A P (crSeq A P M x b k) / dot (M (crSeq A P M x b k).Ap) (crSeq A P M x b k).Ap)
      (fun k => rho A P (crSeq A P M x b (k + 1)) / rho A P (crSeq A P M x b k))
      (fun k => rho A P (crSeq A P M x b k)) K := by
  have hT : ∀ k, cgT M P (cgT A P (crSeq A P M x b k).p) = M (crSeq A P M x b k).Ap := by
    intro k
    rw [cgT_eq (A := A) (crInv g hA x b k).Pp, cgN_eq g (g.idemP _), (crInv g hA x b k).hAp]
  refine
    { symI := fun u v => by rw [ipA_apply, ipA_apply, dot_comm, sym_cgT g]
      symT := fun u v => by
        rw [ipA_apply, ipA_apply, LinearMap.comp_apply, LinearMap.comp_apply, sym_cgN g, sym_cgT g]
      symN := fun u v => rfl
      p0 := rfl
      hr := fun k _ => by
        simp only [LinearMap.comp_apply]
        rw [hT, crSeq_succ, crNext_r]; module
      hp := fun k _ => by
        simp only [LinearMap.id_apply]
        rw [crSeq_succ, crNext_p, add_comm]
      hρ := fun k _ => by
        rw [ipA_apply, LinearMap.id_apply, cgT_eq (CrInv.Pr g (crInv g hA x b k))]; rfl
      hα := fun k hk h => ?_
      hβ := fun k hk => div_mul_cancel₀ _ (nz k hk)
      nz := nz }
  have e : cgT A P (crSeq A P M x b k).p = (crSeq A P M x b k).Ap := by
    rw [cgT_eq (crInv g hA x b k).Pp, (crInv g hA x b k).hAp]
  simp only [LinearMap.comp_apply, ipA_apply] at h ⊢
  rw [hT, e]
  rw [e] at h
  have hne : (crSeq A P M x b k).Ap ≠ 0 := ne_of_dot (by rw [h]; exact nz k hk)
  have hP : P (crSeq A P M x b k).Ap = (crSeq A P M x b k).Ap := by rw [(crInv g hA x b k).hAp, g.idemP]
  exact div_mul_cancel₀ _ (pos_M g hP hne).ne'

theorem cr_Ap_ne {A P M : Vec n →ₗ[ℝ] Vec n} (g : Good A P M) (hA : ∀ u, P u = u → P (A u) = A u) (x b : Vec n) (K : Nat)
    (nz : ∀ k ≤ K, rho A P (crSeq A P M x b k) ≠ 0) : dot (M (crSeq A P M x b K).Ap) (crSeq A P M x b K).Ap ≠ 0 := by
  have h := ((crRec g hA x b K fun k hk => nz k hk.le).conj K le_rfl).1
  simp only [ipA_apply] at h
  rw [cgT_eq (crInv g hA x b K).Pp, ← (crInv g hA x b K).hAp] at h
  have hne : (crSeq A P M x b K).Ap ≠ 0 := ne_of_dot (by rw [h]; exact nz K le_rfl)
  have hP : P (crSeq A P M x b K).Ap = (crSeq A P M x b K).Ap := by rw [(crInv g hA x b K).hAp, g.idemP]
  exact (pos_M g hP hne).ne'

theorem crHead_same (A P M : Vec n →ₗ[ℝ] Vec n) (x b : Vec n) (j : Nat) : (crHead A P M x b j).x = (crSeq A P M x b j).x ∧
    (crHead A P M x b j).rr = (crSeq A P M x b j).rr ∧ (crHead A P M x b j).r = (crSeq A P M x b j).r := by
  cases j <;> exact ⟨rfl, rfl, rfl⟩

open Classical in
theorem crHead_upd (A P M : Vec n →ₗ[ℝ] Vec n) (x b : Vec n) (j : Nat) (nz : ∀ i < j, rho A P (crSeq A P M x b i) ≠ 0) :
    let h := crHead A P M x b j
    let Ar := P (A h.r)
    (if h.rArprev = 0 then h.p else comb (dot h.r Ar / h.rArprev) h.p h.r) = (crSeq A P M x b j).p ∧
    (if h.rArprev = 0 then h.Ap else comb (dot h.r Ar / h.rArprev) h.Ap Ar) = (crSeq A P M x b j).Ap := by
  cases j with
  | zero =>
    have : (crHead A P M x b 0).rArprev = 0 := rfl
    simp only [this, if_true]; exact ⟨rfl, rfl⟩
  | succ j =>
    have e : (crHead A P M x b (j + 1)).rArprev = rho A P (crSeq A P M x b j) := by
      show (crSeq A P M x b (j + 1)).rArprev = _
      rw [crSeq_succ]; rfl
    have hne := nz j (by omega)
    simp only [e, hne, if_false]
    rw [(crHead_same A P M x b (j + 1)).2.2]
    show comb _ (crSeq A P M x b j).p _ = _ ∧ comb _ (crSeq A P M x b j).Ap _ = _
    rw [crSeq_succ]
    exact ⟨rfl, rfl⟩

open Classical in
theorem crLoop_step (S : System n) (t : ℝ) (k : Nat) (s : Cr n) (p Ap : Vec n) (h1 : ¬ dot s.rr s.rr ≤ t) (h2 : dot s.r (S.project (S.multiply s.r)) ≠ 0)
    (hp : (if s.rArprev = 0 then s.p else comb (dot s.r (S.project (S.multiply s.r)) / s.rArprev) s.p s.r) = p)
    (hAp : (if s.rArprev = 0 then s.Ap else comb (dot s.r (S.project (S.multiply s.r)) / s.rArprev) s.Ap (S.project (S.multiply s.r))) = Ap)
    (hd : dot (S.precondition Ap) Ap ≠ 0) (s' : Cr n)
    (hs : s' = ⟨comb (dot s.r (S.project (S.multiply s.r)) / dot (S.precondition Ap) Ap) p s.x,
      comb (-(dot s.r (S.project (S.multiply s.r)) / dot (S.precondition Ap) Ap)) Ap s.rr,
      comb (-(dot s.r (S.project (S.multiply s.r)) / dot (S.precondition Ap) Ap)) (S.precondition Ap) s.r, p, Ap, dot s.r (S.project (S.multiply s.r))⟩) :
    crLoop S t (k + 1) s = ((crLoop S t k s').1 + 1, (crLoop S t k s').2) := by
  subst hs hp hAp
  rw [crLoop, if_neg h1]
  simp only [h2, if_false]
  rw [if_neg hd]

theorem crLoop_seq {A P M : Vec n →ₗ[ℝ] Vec n} (g : Good A P M) (hA : ∀ u, P u = u → P (A u) = A u) (x b : Vec n) (t : ℝ) :
    ∀ k j, (∀ i < j, rho A P (crSeq A P M x b i) ≠ 0) → ∃ m ≤ k, (crLoop (sys A P M) t k (crHead A P M x b j)).1 = m ∧
      (crLoop (sys A P M) t k (crHead A P M x b j)).2.x = (crSeq A P M x b (j + m)).x ∧ (∀ i < j + m, rho A P (crSeq A P M x b i) ≠ 0) ∧
      (m = k ∨ dot (crSeq A P M x b (j + m)).rr (crSeq A P M x b (j + m)).rr ≤ t ∨ rho A P (crSeq A P M x b (j + m)) = 0) := by
  intro k
  induction k with
  | zero => intro j hj; exact ⟨0, le_rfl, rfl, (crHead_same A P M x b j).1, by simpa using hj, Or.inl rfl⟩
  | succ k ih =>
    intro j hj
    obtain ⟨sx, srr, sr⟩ := crHead_same A P M x b j
    by_cases h1 : dot (crSeq A P M x b j).rr (crSeq A P M x b j).rr ≤ t
    · have e : crLoop (sys A P M) t (k + 1) (crHead A P M x b j) = (0, crHead A P M x b j) := by
        rw [crLoop, srr, if_pos h1]
      rw [e]
      exact ⟨0, by omega, rfl, sx, by simpa using hj, Or.inr (Or.inl (by simpa using h1))⟩
    by_cases h2 : rho A P (crSeq A P M x b j) = 0
    · have e : crLoop (sys A P M) t (k + 1) (crHead A P M x b j) = (0, crHead A P M x b j) := by
        rw [crLoop, srr, if_neg h1, sr]
        exact if_pos h2
      rw [e]
      exact ⟨0, by omega, rfl, sx, by simpa using hj, Or.inr (Or.inr (by simpa using h2))⟩
    have hj' : ∀ i < j + 1, rho A P (crSeq A P M x b i) ≠ 0 := by
      intro i hi
      rcases Nat.lt_succ_iff_lt_or_eq.1 hi with hi | rfl
      · exact hj i hi
      · exact h2
    have hd := cr_Ap_ne g hA x b j (fun i hi => hj' i (by omega))
    obtain ⟨up, uAp⟩ := crHead_upd A P M x b j hj
    have e : crLoop (sys A P M) t (k + 1) (crHead A P M x b j) =
        ((crLoop (sys A P M) t k (crHead A P M x b (j + 1))).1 + 1, (crLoop (sys A P M) t k (crHead A P M x b (j + 1))).2) := by
      have hh : crHead A P M x b (j + 1) = ⟨comb (rho A P (crSeq A P M x b j) / dot (M (crSeq A P M x b j).Ap) (crSeq A P M x b j).Ap) (crSeq A P M x b j).p (crSeq A P M x b j).x,
          comb (-(rho A P (crSeq A P M x b j) / dot (M (crSeq A P M x b j).Ap) (crSeq A P M x b j).Ap)) (crSeq A P M x b j).Ap (crSeq A P M x b j).rr,
          comb (-(rho A P (crSeq A P M x b j) / dot (M (crSeq A P M x b j).Ap) (crSeq A P M x b j).Ap)) (M (crSeq A P M x b j).Ap) (crSeq A P M x b j).r,
          (crSeq A P M x b j).p, (crSeq A P M x b j).Ap, rho A P (crSeq A P M x b j)⟩ := by
        show Cr.mk _ _ _ _ _ _ = _
        rw [crSeq_succ]; rfl
      refine crLoop_step (sys A P M) t k _ _ _ (by rw [srr]; exact h1) (by rw [sr]; exact h2) up uAp hd _ ?_
      rw [hh, sx, sr, srr]
      rfl
    obtain ⟨m, hm, e1, e2, e3, e4⟩ := ih (j + 1) hj'
    have ej : j + (m + 1) = j + 1 + m := by omega
    refine ⟨m + 1, by omega, by rw [e, ← e1], by rw [e, ej]; exact e2, by rw [ej]; exact e3, ?_⟩
    rw [ej]
    rcases e4 with e4 | e4
    · left; omega
    · right; exact e4

theorem cr_card {A P M : Vec n →ₗ[ℝ] Vec n} (g : Good A P M) (hA : ∀ u, P u = u → P (A u) = A u) (x b : Vec n) (K : Nat)
    (nz : ∀ k < K, rho A P (crSeq A P M x b k) ≠ 0) : K ≤ Module.finrank ℝ (LinearMap.range P) :=
  (crRec g hA x b K nz).card_le _ fun k _ => ⟨_, CrInv.Pr g (crInv g hA x b k)⟩

theorem rho_zero {A P M : Vec n →ₗ[ℝ] Vec n} (g : Good A P M) (hA : ∀ u, P u = u → P (A u) = A u) (x b : Vec n) (k : Nat)
    (h : rho A P (crSeq A P M x b k) = 0) : (crSeq A P M x b k).rr = 0 := by
  have I := crInv g hA x b k
  by_contra hne
  have hr : (crSeq A P M x b k).r ≠ 0 := by
    intro e
    have := g.posM _ I.Prr hne
    rw [← I.hr, e] at this
    simp [dot] at this
  have := pos_temp g (CrInv.Pr g I) hr
  rw [dot_comm] at this
  exact this.ne' h

theorem cr_x_mem {A P M : Vec n →ₗ[ℝ] Vec n} (x b : Vec n) (k : Nat) :
    (crSeq A P M x b k).x - x ∈ dirs (fun k => (crSeq A P M x b k).p) k := by
  induction k with
  | zero =>
    have : (crSeq A P M x b 0).x - x = 0 := by simp [crSeq, crInit]
    rw [this]; exact Submodule.zero_mem _
  | succ k ih =>
    have ex : (crSeq A P M x b (k + 1)).x - x = (rho A P (crSeq A P M x b k) / dot (M (crSeq A P M x b k).Ap) (crSeq A P M x b k).Ap) • (crSeq A P M x b k).p +
        ((crSeq A P M x b k).x - x) := by
      rw [crSeq_succ, crNext_x]; module
    rw [ex]
    exact Submodule.add_mem _ (Submodule.smul_mem _ _ (mem_dirs (p := fun k => (crSeq A P M x b k).p) (Nat.lt_succ_self k))) (dirs_mono (by omega) ih)

theorem resM_sub {A P M : Vec n →ₗ[ℝ] Vec n} (g : Good A P M) (b y w : Vec n) (ho : dot (M (P (b - A y))) (P (A w)) = 0) :
    resM A P M b y ≤ resM A P M b (y + w) := by
  unfold resM resid
  have e : P (b - A (y + w)) = P (b - A y) - P (A w) := by simp only [map_add, map_sub]; module
  rw [e]
  set u := P (b - A y)
  set v := P (A w) with hv
  have e2 : dot (u - v) (M (u - v)) = dot u (M u) - 2 * dot (M u) v + dot v (M v) := by
    have h1 : dot v (M u) = dot (M u) v := dot_comm _ _
    have h2 : dot u (M v) = dot (M u) v := (g.symM u v).symm
    have : dot (u - v) (M (u - v)) = dot u (M u) - dot u (M v) - (dot v (M u) - dot v (M v)) := by
      rw [← dotL_apply, map_sub, map_sub, LinearMap.sub_apply, map_sub, map_sub]; rfl
    rw [this, h1, h2]; ring
  rw [e2, ho]
  have : 0 ≤ dot v (M v) := by
    by_cases h : v = 0
    · rw [h]; simp [dot]
    · exact (g.posM v (by rw [hv, g.idemP]) h).le
  linarith

theorem cr_optimal_seq {A P M : Vec n →ₗ[ℝ] Vec n} (g : Good A P M) (hA : ∀ u, P u = u → P (A u) = A u) (x b : Vec n) (k : Nat)
    (nz : ∀ i < k, rho A P (crSeq A P M x b i) ≠ 0) (w : Vec n) (hw : w ∈ krylov A P M (P (b - A x)) k) :
    resM A P M b (crSeq A P M x b k).x ≤ resM A P M b (x + w) := by
  have rc := crRec g hA x b k nz
  have hw' : w ∈ dirs (fun k => (crSeq A P M x b k).p) k := by
    refine krylov_le g (g.idemP _) (T := cgT M P ∘ₗ cgT A P) (N := LinearMap.id) ?_ (fun j hj => rc.iter_mem j hj) hw
    intro u hu
    rw [LinearMap.id_apply, LinearMap.comp_apply, cgT_eq (A := A) hu, cgN_eq g (g.idemP _)]
  set d := x + w - (crSeq A P M x b k).x with hd
  have hdm : d ∈ dirs (fun k => (crSeq A P M x b k).p) k := by
    have : d = w - ((crSeq A P M x b k).x - x) := by rw [hd]; module
    rw [this]; exact Submodule.sub_mem _ hw' (cr_x_mem x b k)
  have : x + w = (crSeq A P M x b k).x + d := by rw [hd]; module
  rw [this]
  refine resM_sub g b _ d ?_
  have o := rc.ortho d hdm
  rw [ipA_apply, cgT_eq (dirs_P (fun i => (crInv g hA x b i).Pp) hdm)] at o
  rw [← (crInv g hA x b k).res, ← (crInv g hA x b k).hr]
  exact o

end Verif.Krylov
