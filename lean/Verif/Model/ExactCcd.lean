import Verif.Model.ExactGeo

/-!
Model of the exact continuous collision tests, `include/zensim/geometry/Geometry.hpp`, lines 69-201, 535-543, 601-811 and 827-1057.

As in `Model/ExactGeo.lean` coordinates are rational numbers, differences are exact, and the point outside of a plane (lines 670-678) is a parameter.  The
directions that the loops of lines 917-926 and 1012-1021 draw from a generator with a fixed seed are a parameter: the list of the directions after the first.
The cache `phi_f` of a patch is computed where it is read (lines 643-645).
-/
namespace Verif.ExactCcd
open Verif.ExactGeo

/-- The corners of `bilinear`, line 98. -/
structure Patch where
  v0 : V3
  v1 : V3
  v2 : V3
  v3 : V3

/-- `is_degenerated`, lines 80-81. -/
def Patch.flat (b : Patch) : Bool := orient3d b.v0 b.v1 b.v2 b.v3 == 0

/-- The corners of the i-th of the `facets`, lines 82-92. -/
def Patch.facet (b : Patch) (i : Nat) : V3 × V3 × V3 := (facets b.v0 b.v1 b.v2 b.v3).getD i (b.v0, b.v0, b.v0)

/-- `ray_triangle_intersection` with a facet. -/
def rayFacet (np : V3 → V3 → V3 → V3) (pt pt1 dir : V3) (f : V3 × V3 × V3) : Int := rayTriangle np pt pt1 dir f.1 f.2.1 f.2.2 true

/-- The pair of facets of lines 613-624 and 626-632. -/
def facePair (np : V3 → V3 → V3 → V3) (pt pt1 dir : V3) (f g : V3 × V3 × V3) : Int :=
  let r1 := rayFacet np pt pt1 dir f
  let r2 := rayFacet np pt pt1 dir g
  if r1 = -1 ∨ r2 = -1 then -1 else if r1 > 0 ∨ r2 > 0 then 1 else 0

/-- `ray_shoot_correct_pair`, lines 640-649, with `ray_correct_bilinear_face_pair_inter`, lines 604-634. -/
def correctPair (np : V3 → V3 → V3 → V3) (b : Patch) (pt pt1 dir : V3) : Int :=
  let p := phi pt b.v0 b.v1 b.v2 b.v3
  if p = 0 then 2
  else if (tetPhi b.v0 b.v1 b.v2 b.v3).1 * sgn p < 0 then facePair np pt pt1 dir (b.facet 0) (b.facet 1)
  else facePair np pt pt1 dir (b.facet 2) (b.facet 3)

/-- `int_ray_XOR`, lines 535-543. -/
def rayXor (a b : Int) : Int :=
  if a = -1 ∨ b = -1 then -1 else if a = 0 then b else if b = 0 then a else if a = b then 0 else if a = 2 ∨ b = 2 then 2 else -1

/-- `bilinear_degeneration`, lines 651-690: 1 a plane patch, 2 folded along 0-2, 3 folded along 1-3. -/
def degeneration (np : V3 → V3 → V3 → V3) (b : Patch) : Int :=
  if degenerate b.v0 b.v1 b.v2 ∧ degenerate b.v0 b.v2 b.v3 then 1
  else
    let n := if degenerate b.v0 b.v1 b.v2 then np b.v0 b.v2 b.v3 else np b.v0 b.v1 b.v2
    if orient3d n b.v0 b.v1 b.v2 * orient3d n b.v0 b.v2 b.v3 ≤ 0 then 2
    else if orient3d n b.v0 b.v1 b.v3 * orient3d n b.v3 b.v1 b.v2 ≤ 0 then 3
    else 1

/-- `ray_degenerated_bilinear_parity`, lines 694-743. -/
def flatParity (np : V3 → V3 → V3 → V3) (b : Patch) (pt pt1 dir : V3) (dege : Int) : Int :=
  if dege = 1 then
    let r1 := rayTriangle np pt pt1 dir b.v0 b.v1 b.v2 true
    if r1 = 2 then 2
    else if r1 = -1 then -1
    else if r1 = 1 then 1
    else if r1 = 3 then (if rayTriangle np pt pt1 dir b.v0 b.v1 b.v2 false = 2 then 2 else 1)
    else
      let r2 := rayTriangle np pt pt1 dir b.v0 b.v3 b.v2 false
      if r2 = 2 then 2 else if r2 = -1 then -1 else if r2 = 1 then 1 else 0
  else if dege = 2 then rayXor (rayTriangle np pt pt1 dir b.v0 b.v1 b.v2 true) (rayTriangle np pt pt1 dir b.v0 b.v3 b.v2 true)
  else if dege = 3 then rayXor (rayTriangle np pt pt1 dir b.v0 b.v1 b.v3 true) (rayTriangle np pt pt1 dir b.v2 b.v1 b.v3 true)
  else 0

/-- The part of `ray_bilinear_parity` for points outside of the tetrahedron, lines 754-802. -/
def outsideParity (np : V3 → V3 → V3 → V3) (b : Patch) (pt pt1 dir : V3) : Int :=
  let f := b.facet 0
  let g := b.facet 1
  let r1 := rayFacet np pt pt1 dir f
  let r2 := rayFacet np pt pt1 dir g
  if r1 = -1 ∨ r2 = -1 then -1
  else
    let check : Bool := r1 = 3 ∨ r2 = 3 ∨ (r1 = 2 ∧ r2 = 0) ∨ (r1 = 0 ∧ r2 = 2)
    if r1 = 1 ∧ r2 = 1 then 0
    else if r1 + r2 = 1 then 1
    else if r1 = 1 ∨ r2 = 1 then 0
    else if r1 = 0 ∧ r2 = 0 then 0
    else if check = false then 0
    else if r1 = 3 ∨ r2 = 3 then
      if r1 = 2 ∨ r2 = 2 then 0
      else if pointTriangle np pt f.1 f.2.1 f.2.2 false > 0 ∨ pointTriangle np pt g.1 g.2.1 g.2.2 false > 0 then correctPair np b pt pt1 dir
      else if orient3d pt f.1 f.2.1 f.2.2 > 0 ∧ orient3d pt g.1 g.2.1 g.2.2 > 0 then 1
      else 0
    else if r1 = 2 ∨ r2 = 2 then correctPair np b pt pt1 dir
    else 0

/-- `ray_bilinear_parity`, lines 747-811. -/
def patchParity (np : V3 → V3 → V3 → V3) (b : Patch) (pt pt1 dir : V3) (inTet : Bool) : Int :=
  if !b.flat then (if !inTet then outsideParity np b pt pt1 dir else correctPair np b pt pt1 dir)
  else flatParity np b pt pt1 dir (degeneration np b)

/-- `ray_triangle_parity`, lines 830-851; the flag is that of `prism::isTriangleDegenerated`, lines 135-153. -/
def triangleParity (np : V3 → V3 → V3 → V3) (pt pt1 dir t0 t1 t2 : V3) : Int :=
  if !degenerate t0 t1 t2 then rayTriangle np pt pt1 dir t0 t1 t2 false
  else
    let i1 := raySegment np pt pt1 dir t0 t1
    if i1 = 2 then 2
    else if i1 = 1 then -1
    else
      let i2 := raySegment np pt pt1 dir t1 t2
      if i2 = 2 then 2 else if i2 = 1 then -1 else 0

/-- `is_pt_in_tet`, lines 902-908 and 998-1004: the point is the origin. -/
def Patch.inTet (b : Patch) : Bool := if b.flat then false else insideTet b.v0 b.v1 b.v2 b.v3 ⟨0, 0, 0⟩

/-- The loops over the patches, lines 866-875 and 977-990: `Sum.inl` is a value returned at once, `Sum.inr` the number of hits. -/
def patches (np : V3 → V3 → V3 → V3) (pt pt1 dir : V3) : List Patch → Nat → Int ⊕ Nat
  | [], s => .inr s
  | b :: bs, s =>
    let r := patchParity np b pt pt1 dir b.inTet
    if r = 2 then .inl 1 else if r = -1 then .inl (-1) else patches np pt pt1 dir bs (if r = 1 then s + 1 else s)

/-- `prism`, lines 111-126. -/
def prism (vs fs0 fs1 fs2 ve fe0 fe1 fe2 : V3) : List V3 := [sub vs fs0, sub vs fs2, sub vs fs1, sub ve fe0, sub ve fe2, sub ve fe1]

/-- `hex`, lines 168-186. -/
def hex (a0 a1 b0 b1 a0b a1b b0b b1b : V3) : List V3 :=
  [sub a0 b0, sub a1 b0, sub a1 b1, sub a0 b1, sub a0b b0b, sub a1b b0b, sub a1b b1b, sub a0b b1b]

/-- The i-th vertex. -/
def vtx (p : List V3) (i : Nat) : V3 := p.getD i ⟨0, 0, 0⟩

/-- A patch between four of the vertices. -/
def mk (p : List V3) (i j k l : Nat) : Patch := ⟨vtx p i, vtx p j, vtx p k, vtx p l⟩

/-- The patches of lines 955-961. -/
def prismPatches (p : List V3) : List Patch := [mk p 0 1 4 3, mk p 1 2 5 4, mk p 0 2 5 3]

/-- The patches of lines 1048-1054. -/
def hexPatches (p : List V3) : List Patch := [mk p 0 1 2 3, mk p 4 5 6 7, mk p 0 1 5 4, mk p 1 2 6 5, mk p 2 3 7 6, mk p 0 3 7 4]

/-- `isPrismBboxCutBbox` and `isHexBboxCutBbox` with the box of the origin, lines 128-132, 193-197 and 950-951; `merge` and `overlaps` of `AnalyticLevelSet.h`,
lines 262-289. -/
def boxCut : List V3 → Bool
  | [] => false
  | p :: ps =>
    let lo : V3 := ps.foldl (fun (m q : V3) => ⟨min m.x q.x, min m.y q.y, min m.z q.z⟩) p
    let hi : V3 := ps.foldl (fun (m q : V3) => ⟨max m.x q.x, max m.y q.y, max m.z q.z⟩) p
    !(0 > hi.x || 0 < lo.x) && !(0 > hi.y || 0 < lo.y) && !(0 > hi.z || 0 < lo.z)

/-- `point_inside_prism`, lines 857-896. -/
def insidePrism (np : V3 → V3 → V3 → V3) (p : List V3) (pt pt1 dir : V3) : Int :=
  if dir = ⟨0, 0, 0⟩ then -1
  else
    match patches np pt pt1 dir (prismPatches p) 0 with
    | .inl r => r
    | .inr s =>
      let r := triangleParity np pt pt1 dir (vtx p 0) (vtx p 1) (vtx p 2)
      if r = 2 then 1
      else if r = -1 then -1
      else
        let s := if r > 0 then s + 1 else s
        let r := triangleParity np pt pt1 dir (vtx p 3) (vtx p 4) (vtx p 5)
        if r = 2 then 1
        else if r = -1 then -1
        else
          let s := if r > 0 then s + 1 else s
          if s % 2 = 1 then 1 else 0

/-- `point_inside_hex`, lines 969-992. -/
def insideHex (np : V3 → V3 → V3 → V3) (p : List V3) (pt pt1 dir : V3) : Int :=
  if dir = ⟨0, 0, 0⟩ then -1
  else
    match patches np pt pt1 dir (hexPatches p) 0 with
    | .inl r => r
    | .inr s => if s % 2 = 1 then 1 else 0

/-- The loops of `shoot_origin_ray_prism` and `shoot_origin_ray_hex`, lines 917-933 and 1012-1029. -/
def shoot (inside : V3 → Int) : List V3 → Bool
  | [] => false
  | d :: ds => if inside d ≥ 0 then inside d ≥ 1 else shoot inside ds

/-- The directions of the eight trials, lines 898-926. -/
def trials (draws : List V3) : List V3 := (⟨1, 0, 0⟩ :: draws).take 8

/-- `vertexFaceCCD`, lines 939-964. -/
def vertexFace (np : V3 → V3 → V3 → V3) (draws : List V3) (vs fs0 fs1 fs2 ve fe0 fe1 fe2 : V3) : Bool :=
  let p := prism vs fs0 fs1 fs2 ve fe0 fe1 fe2
  if !boxCut p then false else shoot (fun d => insidePrism np p ⟨0, 0, 0⟩ d d) (trials draws)

/-- `edgeEdgeCCD`, lines 1035-1057. -/
def edgeEdge (np : V3 → V3 → V3 → V3) (draws : List V3) (a0 a1 b0 b1 a0b a1b b0b b1b : V3) : Bool :=
  let p := hex a0 a1 b0 b1 a0b a1b b0b b1b
  if !boxCut p then false else shoot (fun d => insideHex np p ⟨0, 0, 0⟩ d d) (trials draws)

end Verif.ExactCcd
