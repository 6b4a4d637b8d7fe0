import Verif.Proof.Sample
import Verif.Props.GridAccess
import Verif.Props.GridRestructure

/-!
Sampling of grids (C72): `iSample`, `iPack` and `iStaggeredSample` evaluate the function that interpolates the values of the grid with B-splines,
also through accessors; affine functions are reproduced, bounds are kept.
-/
namespace Verif.Sample

open Verif.Grid Verif.Kernel

set_option linter.unusedSectionVars false

variable {K : Type} [Field K] [LinearOrder K] [IsStrictOrderedRing K] [FloorRing K] {sqrt : K → K} {w : Nat} {kt : Kind} {g : SparseGrid.SGrid K}
  {chns chn : Nat} {X : List K} {F : List Int → K}

/-! ## Sparse grids -/

theorem mapM_map {α β γ : Type} (f : β → Option γ) (h : α → β) (l : List α) : (l.map h).mapM f = l.mapM fun a => f (h a) := by
  induction l with
  | nil => rfl
  | cons a l ih => rw [List.map_cons, List.mapM_cons, List.mapM_cons, ih]

/-- An accessor makes no difference, whatever the grid holds. -/
theorem sample_accessor (hb : 0 < g.b) (h31 : g.b < 31) (hd : 0 < g.dim) (chn : Nat) (X : List K) :
    sparseSample sqrt w kt true g chn X = sparseSample sqrt w kt false g chn X := by
  have e : ∀ cs, sparseAccPad g chn cs = sparsePad g chn g.background cs := by
    intro cs
    rw [sparseAccPad, SparseGrid.accessor_valueOr hb h31 hd, mapM_map]
    rfl
  simp only [sparseSample, e, if_true, Bool.false_eq_true, if_false]

/-- An intact grid represents a function. -/
theorem represents_exists (ho : SparseGrid.Ok chns g) (hchn : chn < chns) : ∃ F, Represents g chn F := by
  refine ⟨fun c => ((SparseGrid.look g chn (c.map (BitVec.ofInt 32))).map (·.2)).getD g.background, fun c hc => ?_⟩
  obtain ⟨f, v, h1, h2⟩ := SparseGrid.look_spec ho hc hchn
  have : (c.map BitVec.toInt).map (BitVec.ofInt 32) = c := by
    rw [List.map_map]
    conv_rhs => rw [← List.map_id c]
    apply List.map_congr_left
    intro x _
    simp
  refine ⟨f, ?_⟩
  simp only [this, h1]
  exact h2

/-- The function has the value that `valueOr` gives. -/
theorem represents_value (ho : SparseGrid.Ok chns g) (hchn : chn < chns) (hF : Represents g chn F) {c : Coord} (hc : c.length = g.dim) :
    SparseGrid.valueOr g chn c g.background = some (F (c.map BitVec.toInt)) := by
  obtain ⟨f, v, h1, h2⟩ := SparseGrid.look_spec ho hc hchn
  obtain ⟨f', h3⟩ := hF c hc
  rw [← (SparseGrid.look_unique ho hc h2 h3).2, SparseGrid.valueOr_look, h1]
  cases h2 <;> simp

theorem near_length {X : List K} {c : Coord} (h : Near kt X (c.map BitVec.toInt)) : c.length = X.length := by
  have := h.length_eq
  rw [List.length_map] at this
  exact this.symm

theorem sparse_tensor (ho : SparseGrid.Ok chns g) (hchn : chn < chns) (hF : Represents g chn F) (hX : X.length = g.dim) (hr : InRange kt X)
    (hs : kt.spline = none → IsSqrt sqrt) (accessor : Bool) :
    ∃ corner rows, Rows kt X corner rows ∧ sparseSample sqrt w kt accessor g chn X = some (tensor rows fun o => F (at' corner o)) := by
  obtain ⟨corner, rows, h1, h2⟩ := sample_tensor (sqrt := sqrt) w hs hr (look := fun c => SparseGrid.valueOr g chn c g.background) (F := F)
    fun c hc => represents_value ho hchn hF (by rw [near_length hc, hX])
  refine ⟨corner, rows, h1, ?_⟩
  have : sparseSample sqrt w kt accessor g chn X = sparseSample sqrt w kt false g chn X := by
    cases accessor
    · rfl
    · exact sample_accessor ho.side.1 ho.side.2 ho.dim chn X
  rw [this]; exact h2

/-- With a B-spline kernel, the sample is the value at `X` of the spline with the values of the grid as coefficients. -/
theorem sample_spline (ho : SparseGrid.Ok chns g) (hchn : chn < chns) (hF : Represents g chn F) (hX : X.length = g.dim) (hr : InRange kt X)
    {d : Nat} (hd : kt.spline = some d) (accessor : Bool) : sparseSample sqrt w kt accessor g chn X = some (interp (bspline d) X F) := by
  obtain ⟨corner, rows, h1, h2⟩ := sparse_tensor (sqrt := sqrt) (w := w) ho hchn hF hX hr (by rw [hd]; rintro ⟨⟩) accessor
  rw [h2, h1.interp hd]

/-- Every kernel reproduces affine functions. -/
theorem sample_affine (ho : SparseGrid.Ok chns g) (hchn : chn < chns) (hF : Represents g chn F) (hX : X.length = g.dim) (hr : InRange kt X)
    (hs : kt.spline = none → IsSqrt sqrt) (accessor : Bool) {a₀ : K} {a : List K} (ha : a.length = g.dim)
    (hv : ∀ c, Near kt X c → F c = affine a₀ a (c.map fun n : Int => (n : K))) :
    sparseSample sqrt w kt accessor g chn X = some (affine a₀ a X) := by
  obtain ⟨corner, rows, h1, h2⟩ := sparse_tensor (sqrt := sqrt) (w := w) ho hchn hF hX hr hs accessor
  rw [h2, ← h1.affine a₀ (by rw [ha, hX]), tensor_congr rows fun o ho => hv _ (h1.near ho)]

/-- Samples lie between the least and the largest value around `X`. -/
theorem sample_bounds (ho : SparseGrid.Ok chns g) (hchn : chn < chns) (hF : Represents g chn F) (hX : X.length = g.dim) (hr : InRange kt X)
    (hs : kt.spline = none → IsSqrt sqrt) (accessor : Bool) {lo hi : K} (hv : ∀ c, Near kt X c → lo ≤ F c ∧ F c ≤ hi) :
    ∃ v, sparseSample sqrt w kt accessor g chn X = some v ∧ lo ≤ v ∧ v ≤ hi := by
  obtain ⟨corner, rows, h1, h2⟩ := sparse_tensor (sqrt := sqrt) (w := w) ho hchn hF hX hr hs accessor
  refine ⟨_, h2, ?_, ?_⟩
  · rw [← h1.const lo]; exact h1.mono fun o ho => (hv _ (h1.near ho)).1
  · rw [← h1.const hi]; exact h1.mono fun o ho => (hv _ (h1.near ho)).2

/-! ### Linear interpolation -/

/-- Linear interpolation along the first axis. -/
theorem interp_linear (x : K) (X : List K) (F : List Int → K) : interp (bspline 1) (x :: X) F
    = (1 - (x - ⌊x⌋)) * interp (bspline 1) X (fun c => F (⌊x⌋ :: c)) + (x - ⌊x⌋) * interp (bspline 1) X fun c => F ((⌊x⌋ + 1) :: c) := by
  obtain ⟨p, hp, hr, _⟩ := pads_row (sqrt := fun y : K => y) 32 .linear (by rintro ⟨⟩) x
  rw [interp]
  simp only [← hr.spline 1 rfl]
  rw [finsum_entry, hr.length]
  have hb : baseNode 32 0 (x - (⌊x - 1 / 2 * ((0 : Nat) : K)⌋ : Int)) = some 0 := base_local 32 0 x
  have e : ⌊x - 1 / 2 * ((0 : Nat) : K)⌋ = ⌊x⌋ := by simp
  have hp : linear 32 (x - (⌊x - 1 / 2 * ((0 : Nat) : K)⌋ : Int)) = some p := hp
  rw [linear, hb] at hp
  cases hp
  show ((List.range 2).map _).sum = _
  simp only [Kind.degree, e, List.range, List.range.loop, List.map_cons, List.map_nil, List.sum_cons, List.sum_nil, List.getD_cons_zero, List.getD_cons_succ]
  simp

/-- At an integer point, the value there. -/
theorem interp_node (c : List Int) (F : List Int → K) : interp (bspline 1) (c.map fun n : Int => (n : K)) F = F c := by
  induction c generalizing F with
  | nil => rfl
  | cons n c ih => rw [List.map_cons, interp_linear, ih, ih]; simp

theorem sample_node (ho : SparseGrid.Ok chns g) (hchn : chn < chns) (hF : Represents g chn F) {c : List Int} (hc : c.length = g.dim)
    (hr : ∀ n ∈ c, -2 ^ 31 ≤ n ∧ n < 2 ^ 31 - 1) (accessor : Bool) :
    sparseSample sqrt w .linear accessor g chn (c.map fun n : Int => (n : K)) = some (F c) := by
  rw [sample_spline ho hchn hF (by rw [List.length_map, hc]) _ rfl, interp_node]
  intro x hx n hn
  obtain ⟨m, hm, rfl⟩ := List.mem_map.1 hx
  have h := hr m hm
  obtain ⟨h1, h2⟩ := hn
  simp only [Kind.degree, Nat.cast_zero, mul_zero, sub_zero, Int.floor_intCast, Kind.width] at h1 h2
  constructor <;> omega

/-- Halfway between two points, the mean of the values at both. -/
theorem interp_half (f : Nat) (Y : List K) (m : Int) (hY : Y[f]? = some (m : K)) (F : List Int → K) :
    interp (bspline 1) (Y.modify f (· + 1 / 2)) F
      = (interp (bspline 1) Y F + interp (bspline 1) Y fun c => F (c.modify f (· + 1))) / 2 := by
  induction Y generalizing f F with
  | nil => simp at hY
  | cons y Y ih =>
    cases f with
    | zero =>
      simp only [List.getElem?_cons_zero, Option.some.injEq] at hY
      subst hY
      have e : ⌊(m : K) + 1 / 2⌋ = m := by
        rw [Int.floor_eq_iff]; constructor <;> linarith
      simp only [List.modify_zero_cons]
      rw [interp_linear, interp_linear, interp_linear, e, Int.floor_intCast]
      simp only [List.modify_zero_cons]
      ring
    | succ f =>
      simp only [List.getElem?_cons_succ] at hY
      simp only [List.modify_succ_cons]
      rw [interp_linear, interp_linear, interp_linear, ih f hY, ih f hY]
      simp only [List.modify_succ_cons]
      ring

/-! ### Several channels -/

/-- The components of a packed sample are the samples of the channels. -/
theorem pack_spec (n chn : Nat) (X : List K) (hn : 0 < n) :
    sparsePack sqrt w kt n g chn X = (List.range n).mapM fun i => sparseSample sqrt w kt false g (chn + i) X := by
  have hne : ∃ k, n = k + 1 := ⟨n - 1, by omega⟩
  obtain ⟨k, rfl⟩ := hne
  have hnone : (List.range (k + 1)).mapM (fun _ : Nat => (none : Option K)) = none := by
    rw [List.range_succ_eq_map, List.mapM_cons]; rfl
  simp only [sparsePack, sparseSample]
  cases arena sqrt w kt X with
  | none => exact hnone.symm
  | some a =>
    simp only [Option.bind_some]
    cases nodes kt.width a.corner with
    | none => exact hnone.symm
    | some cs => rfl

/-! ### Staggered grids -/

theorem unshift_eq (f : Nat) (X : List K) : unshift f X = X.modify f (· + 1 / 2) := by
  have h : ∀ (X : List K) (f k : Nat), ((X.zipIdx k).map fun p => p.1 - shift (f + k) p.2) = X.modify f (· + 1 / 2) := by
    intro X
    induction X with
    | nil => intro f k; simp
    | cons x X ih =>
      intro f k
      cases f with
      | zero =>
        simp only [List.zipIdx_cons, List.map_cons, List.modify_zero_cons, Nat.zero_add]
        congr 1
        · simp only [shift, ne_eq, not_true_eq_false, if_false]; ring
        · conv_rhs => rw [← List.zipIdx_map_fst (k + 1) X]
          apply List.map_congr_left
          intro p hp
          have : k + 1 ≤ p.2 := (List.mem_zipIdx hp).1
          rw [shift, if_pos (by omega)]; ring
      | succ f =>
        simp only [List.zipIdx_cons, List.map_cons, List.modify_succ_cons]
        congr 1
        · rw [shift, if_pos (by omega)]; ring
        · rw [← ih f (k + 1), show f + 1 + k = f + (k + 1) by omega]
  exact h X f 0

theorem staggered_tensor {f : Nat} (hf : f < g.dim)
    (hX : X.length = g.dim) (hw : 32 ≤ w) (hr : InRange kt (X.modify f (· + 1 / 2))) :
    staggeredSample sqrt w kt g chn f X = sparseSample sqrt w kt false g (chn + f) (X.modify f (· + 1 / 2)) := by
  have hm : f % X.length = f := Nat.mod_eq_of_lt (by omega)
  rw [staggeredSample, arenaFace_eq hw f (by rw [hm, unshift_eq]; exact hr), hm, unshift_eq]; rfl

/-- A staggered sample is the value of the spline whose coefficients stand at the faces: half a cell before the points along the axis. -/
theorem staggered_spline (ho : SparseGrid.Ok chns g) {f : Nat} (hf : f < g.dim) (hchn : chn + f < chns) (hF : Represents g (chn + f) F)
    (hX : X.length = g.dim) (hw : 32 ≤ w) (hr : InRange kt (X.modify f (· + 1 / 2))) {d : Nat} (hd : kt.spline = some d) :
    staggeredSample sqrt w kt g chn f X = some (interp (bspline d) (X.modify f (· + 1 / 2)) F) := by
  rw [staggered_tensor hf hX hw hr, sample_spline ho hchn hF (by simpa using hX) hr hd]

theorem affine_modify (a₀ t : K) (a y : List K) (f : Nat) (ha : a.length = y.length) (hf : f < y.length) :
    affine a₀ a (y.modify f (· + t)) = affine a₀ a y + a.getD f 0 * t := by
  induction y generalizing a f with
  | nil => simp at hf
  | cons b y ih =>
    cases a with
    | nil => simp at ha
    | cons c a =>
      cases f with
      | zero => simp only [List.modify_zero_cons, affine_cons, List.getD_cons_zero]; ring
      | succ f =>
        simp only [List.modify_succ_cons, affine_cons, List.getD_cons_succ]
        rw [ih a f (by simpa using ha) (by simpa using hf)]; ring

/-- Affine functions known at the faces are reproduced. -/
theorem staggered_affine (ho : SparseGrid.Ok chns g) {f : Nat} (hf : f < g.dim) (hchn : chn + f < chns) (hF : Represents g (chn + f) F)
    (hX : X.length = g.dim) (hw : 32 ≤ w) (hr : InRange kt (X.modify f (· + 1 / 2))) (hs : kt.spline = none → IsSqrt sqrt) {a₀ : K} {a : List K}
    (ha : a.length = g.dim) (hv : ∀ c, Near kt (X.modify f (· + 1 / 2)) c → F c = affine a₀ a (facePos f (c.map fun n : Int => (n : K)))) :
    staggeredSample sqrt w kt g chn f X = some (affine a₀ a X) := by
  have hm : (X.modify f (· + 1 / 2)).length = g.dim := by simpa using hX
  rw [staggered_tensor hf hX hw hr, sample_affine ho hchn hF hm hr hs false ha (a₀ := a₀ - a.getD f 0 / 2)]
  · rw [affine_modify _ _ _ _ _ (by rw [ha, hX]) (by omega)]
    simp only [affine]; congr 1; ring
  · intro c hc
    have hl : c.length = g.dim := by rw [← hc.length_eq, hm]
    rw [hv c hc, facePos]
    have : (fun x : K => x - 1 / 2) = fun x => x + -(1 / 2) := by funext x; ring
    rw [this, affine_modify _ _ _ _ _ (by rw [ha, List.length_map, hl]) (by rw [List.length_map, hl]; omega)]
    simp only [affine]; ring

theorem toInt_modify {c : Coord} {f : Nat} {h : BitVec 32 → BitVec 32} {h' : Int → Int} (hh : ∀ x ∈ c, (h x).toInt = h' x.toInt) :
    (c.modify f h).map BitVec.toInt = (c.map BitVec.toInt).modify f h' := by
  induction c generalizing f with
  | nil => simp
  | cons x c ih =>
    cases f with
    | zero => simp [hh x List.mem_cons_self]
    | succ f => simp only [List.modify_succ_cons, List.map_cons]; rw [ih fun y hy => hh y (List.mem_cons_of_mem _ hy)]

theorem cast_modify {c : List Int} {f : Nat} {h : Int → Int} {h' : K → K} (hh : ∀ n : Int, ((h n : Int) : K) = h' n) :
    (c.modify f h).map (fun n : Int => (n : K)) = (c.map fun n : Int => (n : K)).modify f h' := by
  induction c generalizing f with
  | nil => simp
  | cons x c ih =>
    cases f with
    | zero => simp [hh]
    | succ f => simp only [List.modify_succ_cons, List.map_cons]; rw [ih]

theorem mem_modify {α : Type} {l : List α} {f : Nat} {h : α → α} {y : α} (hy : y ∈ l.modify f h) : ∃ x ∈ l, y = x ∨ y = h x := by
  induction l generalizing f with
  | nil => simp at hy
  | cons x l ih =>
    cases f with
    | zero =>
      rw [List.modify_zero_cons, List.mem_cons] at hy
      rcases hy with rfl | hy
      · exact ⟨x, List.mem_cons_self, .inr rfl⟩
      · exact ⟨y, List.mem_cons_of_mem _ hy, .inl rfl⟩
    | succ f =>
      rw [List.modify_succ_cons, List.mem_cons] at hy
      rcases hy with rfl | hy
      · exact ⟨y, List.mem_cons_self, .inl rfl⟩
      · obtain ⟨z, hz, h⟩ := ih hy
        exact ⟨z, List.mem_cons_of_mem _ hz, h⟩

/-- `iStaggeredCellSample` gives, for axis `d`, the staggered sample at the centre of face `f` of a cell: one value if the axes agree, else the
mean of four. -/
theorem staggeredCell_spec (ho : SparseGrid.Ok chns g) {d f : Nat} (hd : d < g.dim) (hf : f < g.dim) (hchn : chn + d < chns) {c : Coord}
    (hc : c.length = g.dim) (hr : ∀ x ∈ c, -2 ^ 31 < x.toInt ∧ x.toInt < 2 ^ 31 - 1) (hw : 32 ≤ w) :
    staggeredCell g chn d c f = staggeredSample sqrt w .linear g chn d (facePos f (c.map fun x => ((x.toInt : Int) : K))) := by
  obtain ⟨F, hF⟩ := represents_exists ho hchn
  have val := fun {c : Coord} (hc : c.length = g.dim) => represents_value ho hchn hF hc
  have e1 : ∀ x ∈ c, (x + 1#32).toInt = x.toInt + 1 := by
    intro x hx
    have := hr x hx
    rw [BitVec.toInt_add]
    exact Int.bmod_eq_of_le (by norm_num; omega) (by norm_num; omega)
  have e2 : ∀ x ∈ c, (x - 1#32).toInt = x.toInt - 1 := by
    intro x hx
    have := hr x hx
    rw [BitVec.toInt_sub]
    exact Int.bmod_eq_of_le (by norm_num; omega) (by norm_num; omega)
  have hX : (facePos f (c.map fun x => ((x.toInt : Int) : K))).length = g.dim := by simp [facePos, hc]
  have hrange : InRange .linear ((facePos f (c.map fun x => ((x.toInt : Int) : K))).modify d (· + 1 / 2)) := by
    intro y hy n hn
    have : ∃ x ∈ c, (x.toInt : K) - 1 / 2 ≤ y ∧ y ≤ x.toInt + 1 / 2 := by
      obtain ⟨z, hz, hyz⟩ := mem_modify hy
      obtain ⟨u, hu, hzu⟩ := mem_modify hz
      obtain ⟨x, hx, rfl⟩ := List.mem_map.1 hu
      refine ⟨x, hx, ?_⟩
      rcases hyz with rfl | rfl <;> rcases hzu with rfl | rfl <;> constructor <;> linarith
    obtain ⟨x, hx, h1, h2⟩ := this
    have h3 := hr x hx
    obtain ⟨h4, h5⟩ := hn
    simp only [Kind.degree, Nat.cast_zero, mul_zero, sub_zero, Kind.width] at h4 h5
    have h6 : x.toInt - 1 ≤ ⌊y⌋ := by
      rw [Int.le_floor]; push_cast; linarith
    have h7 : ⌊y⌋ < x.toInt + 1 := by
      rw [Int.floor_lt]; push_cast; linarith
    constructor <;> omega
  rw [staggered_spline ho hd hchn hF hX hw hrange rfl]
  have hcast : (c.map fun x => ((x.toInt : Int) : K)) = (c.map BitVec.toInt).map fun n : Int => (n : K) := by rw [List.map_map]; rfl
  by_cases hdf : d = f
  · subst hdf
    rw [staggeredCell]
    simp only [if_true]
    rw [val hc, facePos, List.modify_modify_eq, hcast]
    have : ((fun x : K => x + 1 / 2) ∘ fun x => x - 1 / 2) = id := by funext x; simp
    rw [this, List.modify_id, interp_node]
  · have hp : (prev f c).length = g.dim := by simp [prev, hc]
    have hn : (SparseGrid.next d c).length = g.dim := by simp [SparseGrid.next, hc]
    have hnp : (SparseGrid.next d (prev f c)).length = g.dim := by simp [SparseGrid.next, hp]
    have t1 : (SparseGrid.next d c).map BitVec.toInt = (c.map BitVec.toInt).modify d (· + 1) := toInt_modify e1
    have t2 : (prev f c).map BitVec.toInt = (c.map BitVec.toInt).modify f (· - 1) := toInt_modify e2
    have t3 : (SparseGrid.next d (prev f c)).map BitVec.toInt = ((c.map BitVec.toInt).modify f (· - 1)).modify d (· + 1) := by
      rw [← t2]
      apply toInt_modify
      intro y hy
      obtain ⟨x, hx, rfl | rfl⟩ := mem_modify hy
      · exact e1 y hx
      · rw [BitVec.sub_add_cancel, e2 x hx]; omega
    rw [staggeredCell]
    simp only [if_neg hdf]
    rw [val hc, val hn, val hp, val hnp, t1, t2, t3, hcast]
    simp only [Option.bind_some, Option.map_some, Option.some.injEq]
    generalize hZ : c.map BitVec.toInt = Z
    have hl : Z.length = g.dim := by rw [← hZ, List.length_map, hc]
    have hface : facePos f (Z.map fun n : Int => (n : K)) = ((Z.modify f (· - 1)).map fun n : Int => (n : K)).modify f (· + 1 / 2) := by
      rw [cast_modify (h' := fun x : K => x - 1) (fun n => by push_cast; ring), List.modify_modify_eq, facePos]
      congr 1
      funext x; simp only [Function.comp]; ring
    have g1 : (((Z.modify f (· - 1)).map fun n : Int => (n : K)).modify f (· + 1 / 2))[d]? = some ((Z[d]'(by omega) : Int) : K) := by
      rw [List.getElem?_modify_ne _ _ (Ne.symm hdf), List.getElem?_map, List.getElem?_modify_ne _ _ (Ne.symm hdf), List.getElem?_eq_getElem (by omega)]; rfl
    have g2 : ((Z.modify f (· - 1)).map fun n : Int => (n : K))[f]? = some ((Z[f]'(by omega) - 1 : Int) : K) := by
      rw [List.getElem?_map, List.getElem?_modify_eq, List.getElem?_eq_getElem (by omega)]; rfl
    rw [hface, interp_half d _ _ g1, interp_half f _ _ g2, interp_half f _ _ g2]
    simp only [interp_node]
    have hback : (Z.modify f (· - 1)).modify f (· + 1) = Z := by
      rw [List.modify_modify_eq]
      have : ((fun x : Int => x + 1) ∘ fun x => x - 1) = id := by funext x; simp
      rw [this, List.modify_id]
    rw [hback]; ring

/-- Faces from `dim` on are those of the next cell. -/
theorem staggeredCellFace_spec (chn d : Nat) (c : Coord) {f : Nat} (hf : f < g.dim) :
    staggeredCellFace g chn d c f = staggeredCell g chn d c f
      ∧ staggeredCellFace g chn d c (g.dim + f) = staggeredCell g chn d (SparseGrid.next f c) f := by
  rw [staggeredCellFace, staggeredCellFace, if_neg (by omega), if_pos (by omega), Nat.add_sub_cancel_left]
  exact ⟨rfl, rfl⟩

/-! ## Gradients -/

/-- `Σ_o weightGradient<i>(o) · value(o)` is the derivative of the spline along axis `i`. -/
theorem gradient_spline (hk : kt.smooth = true) (hr : InRange kt X) {d : Nat} (hd : kt.spline = some d) {i : Nat} (hi : i < X.length)
    (F : List Int → K) : ∃ a, arena sqrt w kt X = some a ∧
      ((offsets kt.width X.length).map fun o => weightGradient i a o * F (at' a.corner o)).sum = interpSlope (bspline d) (slope d) i X F := by
  obtain ⟨a, h1, h2⟩ := arena_some (sqrt := sqrt) w (by rw [hd]; rintro ⟨⟩) hr
  refine ⟨a, h1, ?_⟩
  have hg := h2.slopes hk
  have hl : (gradRows i 0 a.weights).length = X.length := by
    rw [gradRows, List.length_map, List.length_zipIdx, ← h2.rows.lengths.2, List.length_map]
  have := hg.interp hd i 0 hi F
  rw [Nat.zero_add] at this
  rw [this, ← tensor_offsets kt.width _ (hg.width i 0), hl]
  rfl

/-- Affine functions have their slope. -/
theorem gradient_affine (hk : kt.smooth = true) (hr : InRange kt X) {i : Nat} (hi : i < X.length) (a₀ : K) {as : List K} (ha : as.length = X.length) :
    ∃ a, arena sqrt w kt X = some a ∧
      ((offsets kt.width X.length).map fun o => weightGradient i a o * affine a₀ as ((at' a.corner o).map fun n : Int => (n : K))).sum = as.getD i 0 := by
  obtain ⟨a, h1, h2⟩ := arena_some (sqrt := sqrt) w (by intro h; cases kt <;> simp [Kind.smooth, Kind.spline] at hk h) hr
  refine ⟨a, h1, ?_⟩
  have hg := h2.slopes hk
  have hl : (gradRows i 0 a.weights).length = X.length := by
    rw [gradRows, List.length_map, List.length_zipIdx, ← h2.rows.lengths.2, List.length_map]
  have := hg.affine i 0 hi a₀ ha
  rw [Nat.zero_add] at this
  rw [← this, ← tensor_offsets kt.width _ (hg.width i 0), hl]
  rfl

/-! ## Minimum and maximum -/

theorem minimum_foldl (top : K) (pad : List K) : minimum top pad ≤ top ∧ (∀ v ∈ pad, minimum top pad ≤ v) ∧ (minimum top pad = top ∨ minimum top pad ∈ pad) := by
  induction pad generalizing top with
  | nil => exact ⟨le_refl _, fun v hv => (List.not_mem_nil hv).elim, .inl rfl⟩
  | cons a pad ih =>
    have e : minimum top (a :: pad) = minimum (if a < top then a else top) pad := rfl
    obtain ⟨h1, h2, h3⟩ := ih (if a < top then a else top)
    rw [e]
    by_cases h : a < top
    · rw [if_pos h] at *
      refine ⟨le_trans h1 h.le, fun v hv => ?_, .inr ?_⟩
      · rcases List.mem_cons.1 hv with rfl | hv
        · exact h1
        · exact h2 v hv
      · rcases h3 with h3 | h3
        · rw [h3]; exact List.mem_cons_self
        · exact List.mem_cons_of_mem _ h3
    · rw [if_neg h] at *
      refine ⟨h1, fun v hv => ?_, ?_⟩
      · rcases List.mem_cons.1 hv with rfl | hv
        · exact le_trans h1 (not_lt.1 h)
        · exact h2 v hv
      · rcases h3 with h3 | h3
        · exact .inl h3
        · exact .inr (List.mem_cons_of_mem _ h3)

theorem maximum_foldl (bottom : K) (pad : List K) :
    bottom ≤ maximum bottom pad ∧ (∀ v ∈ pad, v ≤ maximum bottom pad) ∧ (maximum bottom pad = bottom ∨ maximum bottom pad ∈ pad) := by
  induction pad generalizing bottom with
  | nil => exact ⟨le_refl _, fun v hv => (List.not_mem_nil hv).elim, .inl rfl⟩
  | cons a pad ih =>
    have e : maximum bottom (a :: pad) = maximum (if bottom < a then a else bottom) pad := rfl
    obtain ⟨h1, h2, h3⟩ := ih (if bottom < a then a else bottom)
    rw [e]
    by_cases h : bottom < a
    · rw [if_pos h] at *
      refine ⟨le_trans h.le h1, fun v hv => ?_, .inr ?_⟩
      · rcases List.mem_cons.1 hv with rfl | hv
        · exact h1
        · exact h2 v hv
      · rcases h3 with h3 | h3
        · rw [h3]; exact List.mem_cons_self
        · exact List.mem_cons_of_mem _ h3
    · rw [if_neg h] at *
      refine ⟨h1, fun v hv => ?_, ?_⟩
      · rcases List.mem_cons.1 hv with rfl | hv
        · exact le_trans (not_lt.1 h) h1
        · exact h2 v hv
      · rcases h3 with h3 | h3
        · exact .inl h3
        · exact .inr (List.mem_cons_of_mem _ h3)

/-- The values around `X`, with a default where there is no block. -/
theorem pad_default (ho : SparseGrid.Ok chns g) (hchn : chn < chns) (hX : X.length = g.dim) (hr : InRange kt X) (hs : kt.spline = none → IsSqrt sqrt)
    (top : K) {h : K → List K → K} :
    ∃ pad, ((arena sqrt w kt X).bind fun a => (nodes kt.width a.corner).bind fun cs => (sparsePad g chn top cs).map (h top)) = some (h top pad)
      ∧ (∀ c : Coord, Near kt X (c.map BitVec.toInt) → ∀ v, SparseGrid.Look g chn c true v → v ∈ pad)
      ∧ ∀ v ∈ pad, v = top ∨ ∃ c : Coord, Near kt X (c.map BitVec.toInt) ∧ SparseGrid.Look g chn c true v := by
  obtain ⟨a, h1, h2⟩ := arena_some (sqrt := sqrt) w hs hr
  let G : List Int → K := fun c => (SparseGrid.valueOr g chn (c.map (BitVec.ofInt 32)) top).getD top
  have back : ∀ c : Coord, (c.map BitVec.toInt).map (BitVec.ofInt 32) = c := by
    intro c
    rw [List.map_map]
    conv_rhs => rw [← List.map_id c]
    apply List.map_congr_left
    intro x _
    simp
  have hG : ∀ c : Coord, Near kt X (c.map BitVec.toInt) → SparseGrid.valueOr g chn c top = some (G (c.map BitVec.toInt)) := by
    intro c hc
    obtain ⟨f, v, h3, _⟩ := SparseGrid.look_spec ho (by rw [near_length hc, hX]) hchn
    have : SparseGrid.valueOr g chn c top = some (if f then v else top) := by rw [SparseGrid.valueOr_look, h3]; rfl
    simp only [G, back]
    rw [this]; rfl
  have hp := pad_some hr (look := fun c => SparseGrid.valueOr g chn c top) hG
  have e : ∀ o : Option (List Coord), (o.bind fun cs => (sparsePad g chn top cs).map (h top))
      = (o.bind fun cs => cs.mapM fun c => SparseGrid.valueOr g chn c top).map (h top) := by
    intro o; cases o <;> rfl
  refine ⟨_, by rw [h1, Option.bind_some, h2.corner, e, hp]; rfl, ?_, ?_⟩
  · intro c hc v hv
    have hgc := hG c hc
    obtain ⟨f, v', h3, h4⟩ := SparseGrid.look_spec ho (by rw [near_length hc, hX]) hchn
    obtain ⟨rfl, rfl⟩ := SparseGrid.look_unique ho (by rw [near_length hc, hX]) h4 hv
    rw [SparseGrid.valueOr_look, h3] at hgc
    simp only [Option.map_some, if_true, Option.some.injEq] at hgc
    rw [hgc]
    have : ∃ o ∈ offsets kt.width X.length, at' (X.map (base kt)) o = c.map BitVec.toInt := by
      generalize c.map BitVec.toInt = z at hc
      clear hgc hG hp h1 h2 hr hX
      induction hc with
      | nil => exact ⟨[], by simp [offsets], rfl⟩
      | @cons x n X z h0 _ ih =>
        obtain ⟨o, ho', hz⟩ := ih
        obtain ⟨h5, h6⟩ := mem_offsets.1 ho'
        have h7 : base kt x ≤ n ∧ n < base kt x + kt.width := h0
        refine ⟨(n - base kt x).toNat :: o, mem_offsets.2 ⟨by simp [h5], ?_⟩, ?_⟩
        · intro k hk
          rcases List.mem_cons.1 hk with rfl | hk
          · omega
          · exact h6 k hk
        · show (base kt x + ((n - base kt x).toNat : Int)) :: at' (X.map (base kt)) o = n :: z
          rw [hz]
          congr 1; omega
    obtain ⟨o, ho', hz⟩ := this
    exact List.mem_map.2 ⟨o, ho', by rw [hz]⟩
  · intro v hv
    obtain ⟨o, ho', rfl⟩ := List.mem_map.1 hv
    obtain ⟨h5, h6⟩ := mem_offsets.1 ho'
    obtain ⟨_, h8, h9⟩ := node_some hr h5 h6
    rw [← h8] at h9
    have hgc := hG _ h9
    rw [h8] at hgc
    obtain ⟨f, v', h3, h4⟩ := SparseGrid.look_spec ho (by rw [near_length h9, hX]) hchn
    rw [SparseGrid.valueOr_look, h3] at hgc
    cases f with
    | false => left; simpa using hgc.symm
    | true =>
      right
      refine ⟨_, h9, ?_⟩
      have : v' = G (at' (X.map (base kt)) o) := by simpa using hgc
      rw [← this]; exact h4

/-- `minimum` is the least value stored around `X`, or the largest number if there is none. -/
theorem minimum_spec (ho : SparseGrid.Ok chns g) (hchn : chn < chns) (hX : X.length = g.dim) (hr : InRange kt X) (hs : kt.spline = none → IsSqrt sqrt)
    (top : K) : ∃ m, sparseMinimum sqrt w kt top false g chn X = some m ∧ m ≤ top
      ∧ (∀ c : Coord, Near kt X (c.map BitVec.toInt) → ∀ v, SparseGrid.Look g chn c true v → m ≤ v)
      ∧ (m = top ∨ ∃ c : Coord, Near kt X (c.map BitVec.toInt) ∧ SparseGrid.Look g chn c true m) := by
  obtain ⟨pad, h1, h2, h3⟩ := pad_default (sqrt := sqrt) (w := w) ho hchn hX hr hs top (h := minimum)
  obtain ⟨h4, h5, h6⟩ := minimum_foldl top pad
  exact ⟨_, h1, h4, fun c hc v hv => h5 v (h2 c hc v hv), h6.elim .inl fun h => h3 _ h⟩

theorem maximum_spec (ho : SparseGrid.Ok chns g) (hchn : chn < chns) (hX : X.length = g.dim) (hr : InRange kt X) (hs : kt.spline = none → IsSqrt sqrt)
    (bottom : K) : ∃ m, sparseMaximum sqrt w kt bottom false g chn X = some m ∧ bottom ≤ m
      ∧ (∀ c : Coord, Near kt X (c.map BitVec.toInt) → ∀ v, SparseGrid.Look g chn c true v → v ≤ m)
      ∧ (m = bottom ∨ ∃ c : Coord, Near kt X (c.map BitVec.toInt) ∧ SparseGrid.Look g chn c true m) := by
  obtain ⟨pad, h1, h2, h3⟩ := pad_default (sqrt := sqrt) (w := w) ho hchn hX hr hs bottom (h := maximum)
  obtain ⟨h4, h5, h6⟩ := maximum_foldl bottom pad
  exact ⟨_, h1, h4, fun c hc v hv => h5 v (h2 c hc v hv), h6.elim .inl fun h => h3 _ h⟩

/-! ## Adaptive grids -/

theorem mapM_length {α β : Type} {f : α → Option β} {l : List α} {r : List β} (h : l.mapM f = some r) : r.length = l.length := by
  induction l generalizing r with
  | nil => cases h; rfl
  | cons a l ih =>
    rw [List.mapM_cons] at h
    cases e1 : f a with
    | none => rw [e1] at h; cases h
    | some b =>
      cases e2 : l.mapM f with
      | none => rw [e1, e2] at h; cases h
      | some bs => rw [e1, e2] at h; cases h; simp [ih e2]

theorem mapM_mem {α β : Type} {f : α → Option β} {l : List α} {r : List β} (h : l.mapM f = some r) : ∀ b ∈ r, ∃ a ∈ l, f a = some b := by
  induction l generalizing r with
  | nil => cases h; intro b hb; cases hb
  | cons a l ih =>
    rw [List.mapM_cons] at h
    cases e1 : f a with
    | none => rw [e1] at h; cases h
    | some b =>
      cases e2 : l.mapM f with
      | none => rw [e1, e2] at h; cases h
      | some bs =>
        rw [e1, e2] at h; cases h
        intro x hx
        rcases List.mem_cons.1 hx with rfl | hx
        · exact ⟨a, List.mem_cons_self, e1⟩
        · obtain ⟨y, hy, e⟩ := ih e2 x hx
          exact ⟨y, List.mem_cons_of_mem _ hy, e⟩

/-- An accessor makes no difference for adaptive grids either, whatever the grid holds. -/
theorem adaptive_accessor {g : Grid K} (hv : g.lay.Valid g.dim) (hd : 0 < g.dim) {depths : Nat} (hn : depths ≤ g.lay.levels) (chn : Nat)
    (hX : X.length = g.dim) : adaptiveSample sqrt w kt (some depths) g chn X = adaptiveSample sqrt w kt none g chn X := by
  simp only [adaptiveSample]
  cases ha : arena sqrt w kt X with
  | none => rfl
  | some a =>
    simp only [Option.bind_some]
    cases hcs : nodes kt.width a.corner with
    | none => rfl
    | some cs =>
      simp only [Option.bind_some]
      congr 1
      have hcor : a.corner.length = g.dim := by
        rw [arena] at ha
        cases hm : X.mapM (baseNode 32 kt.degree) with
        | none => rw [hm] at ha; cases ha
        | some corner =>
          rw [hm, Option.bind_some] at ha
          obtain ⟨ps, _, rfl⟩ := Option.map_eq_some_iff.1 ha
          show corner.length = _
          rw [mapM_length hm, hX]
      have hlen : ∀ c ∈ cs, c.length = g.dim := by
        intro c hc
        obtain ⟨o, ho, hno⟩ := mapM_mem hcs c hc
        rw [node] at hno
        rw [mapM_length hno, List.length_zip, (mem_offsets.1 ho).1, Nat.min_self, hcor]
      rw [adaptiveAccPad, accessor_transparent hv hd hn _ (by
        intro q hq
        obtain ⟨c, hc, rfl⟩ := List.mem_map.1 hq
        exact hlen c hc), mapM_map, adaptivePad]
      clear hcs hlen
      induction cs with
      | nil => rfl
      | cons c cs ih =>
        rw [List.mapM_cons, List.mapM_cons, ← ih, Grid.value]
        cases probeValue g true chn c with
        | none => rfl
        | some x => cases List.mapM (fun a => probeValue g true chn a) cs <;> rfl

/-- A sample of an adaptive grid with the values `F` around `X`. -/
theorem adaptive_spline {g : Grid K} (hr : InRange kt X) (hF : ∀ c : Coord, Near kt X (c.map BitVec.toInt) → Grid.value g chn c = some (F (c.map BitVec.toInt)))
    {d : Nat} (hd : kt.spline = some d) : adaptiveSample sqrt w kt none g chn X = some (interp (bspline d) X F) := by
  obtain ⟨corner, rows, h1, h2⟩ := sample_tensor (sqrt := sqrt) w (by rw [hd]; rintro ⟨⟩) hr hF
  rw [h1.interp hd]
  exact h2

theorem adaptive_affine {g : Grid K} (hr : InRange kt X) (hs : kt.spline = none → IsSqrt sqrt) {a₀ : K} {a : List K} (ha : a.length = X.length)
    (hv : ∀ c : Coord, Near kt X (c.map BitVec.toInt) → Grid.value g chn c = some (affine a₀ a (c.map fun x => ((x.toInt : Int) : K)))) :
    adaptiveSample sqrt w kt none g chn X = some (affine a₀ a X) := by
  obtain ⟨corner, rows, h1, h2⟩ := sample_tensor (sqrt := sqrt) w hs hr (F := fun c => affine a₀ a (c.map fun n : Int => (n : K)))
    (look := Grid.value g chn) (fun c hc => by rw [hv c hc, List.map_map]; rfl)
  rw [← h1.affine a₀ ha]
  exact h2

/-! ## Examples -/

/-- Blocks of two cells at 0 and at -2, in one dimension, with the values `10 x`. -/
def slopeGrid : SparseGrid.SGrid ℚ where
  b := 1
  dim := 1
  cfg := (blockTable [[0], [-2]]).1
  tab := (blockTable [[0], [-2]]).2
  tiles := [[[0, 10]], [[-20, -10]]]
  background := 7

theorem slopeGrid_ok : SparseGrid.Ok 1 slopeGrid :=
  ⟨by decide, by decide, by decide, (by decide : 2 ≤ (blockTable []).1.B), rfl, blockTable_sound _ (by decide) (by decide) (by decide), Nat.le_refl 2,
    by decide⟩

example : sparseSample id 32 .quadratic true slopeGrid 0 [-1 / 4] = some (-5 / 2) := by decide +kernel
example : sparseSample id 32 .linear false slopeGrid 0 [5 / 4] = some (37 / 4) := by decide +kernel
example : staggeredSample id 32 .linear slopeGrid 0 0 [-1 / 4] = some (5 / 2) := by decide +kernel
example : InRange .quadratic [(-1 / 4 : ℚ)] := by
  intro x hx n hn
  rw [List.mem_singleton.1 hx] at hn
  have e : ⌊(-1 / 4 : ℚ) - 1 / 2 * ((Kind.quadratic.degree : Nat) : ℚ)⌋ = -1 := by simp only [Kind.degree]; norm_num [Int.floor_eq_iff]
  obtain ⟨h1, h2⟩ := hn
  rw [e] at h1 h2
  simp only [Kind.width] at h2
  constructor <;> omega

/-- Through an accessor, `minimum` takes the background for a stored value: around 3/2 there is the value 10 at 1 and no block at 2; without
accessor the minimum is 10, with accessor it is the background 7. -/
theorem minimum_accessor_violated : sparseMinimum id 32 .linear 1000 false slopeGrid 0 [3 / 2] = some 10
    ∧ sparseMinimum id 32 .linear 1000 true slopeGrid 0 [3 / 2] = some 7 := by decide +kernel

end Verif.Sample
