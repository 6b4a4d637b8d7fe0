import Verif.Proof.MeshIO

/-!
Files of meshes (C107).
-/
namespace Verif.MeshIO

variable {α : Type}

/-- Reading a file that was written appends the mesh: the points, as they are printed and read, and the tetrahedra, whose indices are those of the new points. -/
theorem vtk_round_trip {N : Num α} {rd : α → α} (hN : N.Ok rd) (isFloat : Bool) (X0 X : List (Pt α)) (T0 T : List Tet) :
    readVtk N X0 T0 (writeVtk N isFloat X T) =
      some (X0 ++ X.map (fun x => (rd x.1, rd x.2.1, rd x.2.2)),
        T0 ++ T.map fun m => (m.1 + X0.length, m.2.1 + X0.length, m.2.2.1 + X0.length, m.2.2.2 + X0.length)) := by
  have hlines : getlines (writeVtk N isFloat X T) = header ++ [spaced [kwPoints, printNat X.length, if isFloat then kwFloat else kwDouble]] ++
      X.map (ptLine N) ++ [[]] ++ [spaced [kwCells, printNat T.length, printNat (5 * T.length)]] ++ T.map tetLine ++ [[]] ++
      [spaced [kwTypes, printNat T.length]] ++ T.map fun _ => ['1', '0'] := by
    refine getlines_unlines fun l hl => ?_
    have hf : '\n' ∉ (if isFloat then kwFloat else kwDouble) := by cases isFloat <;> decide
    simp only [List.mem_append, List.mem_map, List.mem_singleton] at hl
    rcases hl with ((((((((hl | rfl) | ⟨x, -, rfl⟩) | rfl) | rfl) | ⟨m, -, rfl⟩) | rfl) | rfl) | ⟨m, -, rfl⟩)
    · revert l
      decide
    · exact spaced_noLine (by simp [printNat_noLine, hf]; decide)
    · exact spaced_noLine (by simp [print_noLine hN])
    · simp
    · exact spaced_noLine (by simp [printNat_noLine]; decide)
    · exact spaced_noLine (by simp [printNat_noLine])
    · simp
    · exact spaced_noLine (by simp [printNat_noLine]; decide)
    · decide
  have empty : ∀ st : St α, steps N X0.length [[]] st = some st := fun st => rfl
  have single : ∀ (l : Text) (st : St α), steps N X0.length [l] st = step N X0.length st l := fun l st => by
    rw [steps]
    cases step N X0.length st l <;> rfl
  rw [readVtk, hlines]
  simp only [steps_append]
  rw [steps_header N _ _ rfl rfl, Option.bind_some, single, step_points, Option.bind_some, steps_points hN _ _ _ rfl, Option.bind_some, empty, Option.bind_some,
    single, step_cells, Option.bind_some, steps_tets N _ _ _ rfl rfl, Option.bind_some, empty, Option.bind_some, single, step_types, Option.bind_some,
    steps_types N _ _ _ rfl rfl, Option.bind_some]
  simp

/-- The end of the last line may be missing. -/
theorem vtk_last_line {α : Type} (N : Num α) (X : List (Pt α)) (T : List Tet) (t : Text) (c : Char) (hc : c ≠ '\n') :
    readVtk N X T (t ++ [c]) = readVtk N X T (t ++ [c] ++ ['\n']) := by
  rw [readVtk, readVtk, getlines_last t hc]

/-- The conditions on printed numbers can be met. -/
example : natNum.Ok id where
  nonempty _ := Nat.toDigits_ne_nil
  noBlank _ _ hc := digit_noWs (printNat_digit hc)
  noWord x := by
    have h : ∀ c, (printNat x).head? = some c → c.isDigit = true := fun c hc => printNat_digit (List.mem_of_mem_head? hc)
    exact ⟨fun e => absurd (h _ e) (by decide), fun e => absurd (h _ e) (by decide)⟩
  parse x := by
    have := readNat_word x head_nil
    rw [List.append_nil] at this
    show (readNat (printNat x)).map Prod.fst = _
    rw [this]
    rfl

/-- A file with several points on a line, which the format allows, is read with the first point of the line only. -/
theorem vtk_points_violated :
    steps natNum 0 [spaced [kwPoints, ['2'], kwFloat], ['1', ' ', '2', ' ', '3', ' ', '4', ' ', '5', ' ', '6']] ⟨false, false, 0, 0, [], []⟩ =
      some ⟨true, false, 2, 0, [(1, 2, 3)], []⟩ := by rfl

/-- An OBJ file that was written describes the mesh: its vertices, as they are printed and read, and its triangles. -/
theorem obj_exact {N : Num α} {rd : α → α} (hN : N.Ok rd) (X : List (Pt α)) (T : List (Nat × Nat × Nat)) :
    objMesh N (writeObj N X T) = some (X.map (fun x => (rd x.1, rd x.2.1, rd x.2.2)), T) := by
  have hlines : getlines (writeObj N X T) = X.map (fun x => 'v' :: ' ' :: ptLine N x) ++ [[]] ++
      T.map fun f => spaced [['f'], printNat (f.1 + 1), printNat (f.2.1 + 1), printNat (f.2.2 + 1)] := by
    refine getlines_unlines fun l hl => ?_
    simp only [List.mem_append, List.mem_map, List.mem_singleton] at hl
    rcases hl with ((⟨x, -, rfl⟩ | rfl) | ⟨m, -, rfl⟩)
    · exact spaced_noLine (by simp [print_noLine hN])
    · simp
    · exact spaced_noLine (by simp [printNat_noLine])
  rw [objMesh, hlines, List.foldlM_append, List.foldlM_append, obj_vertices (ptLine N) _ (readPt_line hN)]
  show (do let m ← (do let m ← some _; [[]].foldlM (objStep N) m); _) = _
  simp only [Option.bind_eq_bind, Option.bind_some, List.foldlM_cons, List.foldlM_nil, obj_empty]
  show List.foldlM _ _ _ = _
  rw [obj_faces]
  simp

/-- In the plane, the third coordinate is zero. -/
theorem obj_plane_exact {N : Num α} {rd : α → α} (hN : N.Ok rd) {zero : α} (h0 : N.parse ['0'] = some zero) (X : List (α × α)) (T : List (Nat × Nat × Nat)) :
    objMesh N (writeObj2 N X T) = some (X.map (fun x => (rd x.1, rd x.2, zero)), T) := by
  have hlines : getlines (writeObj2 N X T) = X.map (fun x => 'v' :: ' ' :: spaced [N.print x.1, N.print x.2, ['0']]) ++ [[]] ++
      T.map fun f => spaced [['f'], printNat (f.1 + 1), printNat (f.2.1 + 1), printNat (f.2.2 + 1)] := by
    refine getlines_unlines fun l hl => ?_
    simp only [List.mem_append, List.mem_map, List.mem_singleton] at hl
    rcases hl with ((⟨x, -, rfl⟩ | rfl) | ⟨m, -, rfl⟩)
    · exact spaced_noLine (by simp [print_noLine hN])
    · simp
    · exact spaced_noLine (by simp [printNat_noLine])
  have hread : ∀ x : α × α, readPt N (spaced [N.print x.1, N.print x.2, ['0']]) = some (rd x.1, rd x.2, zero) := fun x => by
    have h3 : readNum N ['0'] = some (zero, []) := by
      show (N.parse ['0']).map _ = _
      rw [h0]; rfl
    simp only [readPt, spaced]
    rw [readNum_word hN x.1 head_blank, Option.bind_some, readNum_blank, readNum_word hN x.2 head_blank, Option.bind_some, readNum_blank, h3, Option.map_some]
  rw [objMesh, hlines, List.foldlM_append, List.foldlM_append, obj_vertices (fun x : α × α => spaced [N.print x.1, N.print x.2, ['0']]) _ hread]
  show (do let m ← (do let m ← some _; [[]].foldlM (objStep N) m); _) = _
  simp only [Option.bind_eq_bind, Option.bind_some, List.foldlM_cons, List.foldlM_nil, obj_empty]
  show List.foldlM _ _ _ = _
  rw [obj_faces]
  simp

/-- `load_obj` appends the vertices of the file and its triangles, keeps the normals of the mesh, and gives each vertex for which the file has one normal that
normal, and zero where the file has none. -/
theorem load_exact (zero : Pt α) (m : Mesh α) (o : Obj α) (hv : ∀ c ∈ o.shapes.flatten.flatten, c.1 < o.vertices.length)
    (hn : ∀ c ∈ o.shapes.flatten.flatten, ∀ n, c.2 = some n → n < o.normals.length) :
    ∃ m', loadObj zero m o = some m' ∧ m'.pos = m.pos ++ o.vertices ∧ m'.tris = m.tris ++ o.shapes.flatten.map (fun f => f.map Prod.fst) ∧
      m'.nrm.length = m.nrm.length + o.vertices.length ∧ (∀ i < m.nrm.length, m'.nrm[i]? = m.nrm[i]?) ∧
      ∀ v < o.vertices.length, ∀ n, (∀ c ∈ o.shapes.flatten.flatten, c.1 = v → c.2 = n) → (∃ c ∈ o.shapes.flatten.flatten, c.1 = v) →
        m'.nrm[m.nrm.length + v]? = match n with
          | none => some zero
          | some n => o.normals[n]? := by
  obtain ⟨nrm, h1, h2, h3, h4⟩ := setNormals_spec o m.nrm.length o.shapes.flatten.flatten (m.nrm ++ List.replicate o.vertices.length zero)
    (fun c hc => by simp only [List.length_append, List.length_replicate]; exact Nat.add_lt_add_left (hv c hc) _) hn
  refine ⟨_, by rw [loadObj, h1, Option.map_some], rfl, rfl, by rw [h2]; simp, fun i hi => ?_, fun v hvl n hall hex => ?_⟩
  · rw [h3 i (Or.inl hi), List.getElem?_append_left hi]
  · cases n with
    | none =>
      rw [h3 _ (Or.inr ⟨v, rfl, fun c hc e => hall c hc e⟩), List.getElem?_append_right (Nat.le_add_right _ _), Nat.add_sub_cancel_left,
        List.getElem?_replicate, if_pos hvl]
    | some n => exact h4 v n hall hex

/-- Loaded into an empty mesh, the corners of the triangles are those of the file. -/
theorem load_corners_partial {zero : Pt α} {m : Mesh α} {o : Obj α} {m' : Mesh α} (h : loadObj zero m o = some m') (h1 : m.pos = []) (h2 : m.tris = []) :
    m'.tris.map (fun t => t.map fun v => m'.pos[v]?) = o.shapes.flatten.map fun f => f.map fun c => o.vertices[c.1]? := by
  rw [loadObj, Option.map_eq_some_iff] at h
  obtain ⟨nrm, -, rfl⟩ := h
  simp only [h1, h2, List.nil_append, List.map_map]
  exact List.map_congr_left fun f _ => by simp [Function.comp_def]

/-- Loaded into a mesh that is not empty, the triangle of the file has corners of the old mesh: the indices are not shifted. -/
theorem load_corners_violated : ∃ (m m' : Mesh Nat) (o : Obj Nat), loadObj (0, 0, 0) m o = some m' ∧
    o.vertices = [(1, 0, 0), (0, 1, 0), (0, 0, 1)] ∧ m'.tris = m.tris ++ [[0, 1, 2]] ∧
    [0, 1, 2].map (fun v => m'.pos[v]?) = [some (9, 9, 9), some (1, 0, 0), some (0, 1, 0)] :=
  ⟨⟨[(9, 9, 9)], [(0, 0, 0)], []⟩, ⟨[(9, 9, 9), (1, 0, 0), (0, 1, 0), (0, 0, 1)], [(0, 0, 0), (5, 5, 5), (5, 5, 5), (5, 5, 5)], [[0, 1, 2]]⟩,
    ⟨[(1, 0, 0), (0, 1, 0), (0, 0, 1)], [(5, 5, 5)], [[[(0, some 0), (1, some 0), (2, some 0)]]]⟩, by rfl, by rfl, by rfl, by rfl⟩

end Verif.MeshIO
