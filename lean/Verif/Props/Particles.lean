import Verif.Proof.Particles
import Mathlib.LinearAlgebra.Matrix.Determinant.Basic
import Mathlib.Data.Rat.Defs
import Mathlib.Tactic.Ring

/-! C98: sets of attributes of particles. -/
namespace Verif.Particles

variable {K : Type} [Field K] {d n : Nat}

/-- New particles are consistent. -/
theorem make_consistent (junk : Nat → List K) (hj : ∀ i, (junk i).length = d) : Consistent d n (make n junk) ∧ size (make n junk) = some n := by
  have h : ∀ name a, (make n junk).lookup name = some a → a = ⟨.vector, (List.range n).map junk⟩ := by
    intro name a h
    simp only [make, List.lookup] at h
    split at h
    · exact (Option.some.inj h).symm
    · cases h
  refine ⟨⟨⟨_, rfl, rfl⟩, fun name a e => ?_, fun name a e v hv => ?_⟩, ?_⟩
  · rw [h name a e]; simp
  · rw [h name a e] at hv ⊢
    obtain ⟨i, -, rfl⟩ := List.mem_map.1 hv
    exact hj i
  · simp [size, attr, tryGet, make, List.lookup]

/-- `addAttr` keeps an attribute of that kind, and otherwise makes one with an element for every particle; all other attributes stay. -/
theorem addAttr_partial {p : Particles K} (h : Consistent d n p) {name : String} (kind : Kind) (hx : name = "x" → kind = .vector) (junk : Nat → List K) (hj : ∀ i, (junk i).length = kind.comps d) :
    ∃ p', addAttr p name kind junk = some p' ∧ Consistent d n p' ∧ (∀ k, k ≠ name → p'.lookup k = p.lookup k) ∧ (∃ a, p'.lookup name = some a ∧ a.kind = kind) ∧
      (∀ a, p.lookup name = some a → a.kind = kind → p' = p) := by
  obtain ⟨⟨ax, hax, hkx⟩, hlen, hcomp⟩ := h
  have hs : size p = some n := by simp [size, attr, tryGet, hax, hlen _ _ hax]
  have hput : ∀ (hne : name ≠ "x"), Consistent d n (put p name ⟨kind, (List.range n).map junk⟩) := by
    intro hne
    refine ⟨⟨ax, ?_, hkx⟩, fun k a e => ?_, fun k a e v hv => ?_⟩
    · rw [lookup_put, if_neg (Ne.symm hne)]; exact hax
    · rw [lookup_put] at e
      split_ifs at e
      · rw [← Option.some.inj e]; simp
      · exact hlen k a e
    · rw [lookup_put] at e
      split_ifs at e
      · rw [← Option.some.inj e] at hv ⊢
        obtain ⟨i, -, rfl⟩ := List.mem_map.1 hv
        exact hj i
      · exact hcomp k a e v hv
  have hnew : ∀ (hno : ∀ a, p.lookup name = some a → a.kind ≠ kind), ∃ p', some (put p name ⟨kind, (List.range n).map junk⟩) = some p' ∧ Consistent d n p' ∧ (∀ k, k ≠ name → p'.lookup k = p.lookup k) ∧
      (∃ a, p'.lookup name = some a ∧ a.kind = kind) ∧ (∀ a, p.lookup name = some a → a.kind = kind → p' = p) := by
    intro hno
    have hne : name ≠ "x" := by
      intro e
      exact hno ax (e ▸ hax) (hkx.trans (hx e).symm)
    exact ⟨_, rfl, hput hne, fun k hk => by rw [lookup_put, if_neg hk], ⟨_, by rw [lookup_put, if_pos rfl], rfl⟩, fun a e hk => absurd hk (hno a e)⟩
  unfold addAttr tryGet
  cases hp : p.lookup name with
  | none =>
    simp only [hs, Option.map_some]
    simpa [hp] using hnew (by simp [hp])
  | some a =>
    by_cases hk : a.kind = kind
    · simp only [if_pos hk]
      exact ⟨p, rfl, ⟨⟨ax, hax, hkx⟩, hlen, hcomp⟩, fun _ _ => rfl, ⟨a, hp, hk⟩, fun _ _ _ => rfl⟩
    · simp only [if_neg hk, hs, Option.map_some]
      have := hnew (by rw [hp]; rintro b e; rw [← Option.some.inj e]; exact hk)
      simpa [hp] using this

/-- Adding the positions as another kind replaces them, after which they cannot be read. -/
theorem addAttr_violated {p : Particles K} (h : Consistent d n p) {kind : Kind} (hk : kind ≠ .vector) (junk : Nat → List K) : ∃ p', addAttr p "x" kind junk = some p' ∧ retrievePositions p' = none := by
  obtain ⟨⟨ax, hax, hkx⟩, hlen, -⟩ := h
  refine ⟨put p "x" ⟨kind, (List.range n).map junk⟩, ?_, ?_⟩
  · have hs : size p = some n := by simp [size, attr, tryGet, hax, hlen _ _ hax]
    simp only [addAttr, tryGet, hax, hs, Option.map_some]
    rw [if_neg (by rw [hkx]; exact Ne.symm hk)]
  · simp only [retrievePositions, attrOf, attr, tryGet]
    rw [lookup_put, if_pos rfl]
    simp [hk]

/-- Appending particles with the same attributes concatenates every attribute. -/
theorem append_partial {m : Nat} {p q : Particles K} (hp : Consistent d n p) (hq : Consistent d m q) (hn : (q.map Prod.fst).Nodup)
    (hs : ∀ k, (p.lookup k).map Attr.kind = (q.lookup k).map Attr.kind) : ∃ r, append p q = some r ∧ Consistent d (n + m) r ∧
      ∀ k a b, p.lookup k = some a → q.lookup k = some b → r.lookup k = some ⟨a.kind, a.vals ++ b.vals⟩ := by
  have hmem : ∀ e ∈ q, q.lookup e.1 = some e.2 := by
    intro e he
    clear hs hq
    induction q with
    | nil => simp at he
    | cons f q ih =>
      obtain ⟨nm, b⟩ := f
      rw [List.map_cons, List.nodup_cons] at hn
      rcases List.mem_cons.1 he with rfl | he
      · simp
      · have hne : e.1 ≠ nm := fun h => hn.1 (List.mem_map.2 ⟨e, he, h⟩)
        rw [List.lookup_cons]
        have : (e.1 == nm) = false := by simpa using hne
        simp only [this]
        exact ih hn.2 he
  obtain ⟨r, e, hr⟩ := append_lookup q p hn (by
    intro f hf a ha
    have := hs f.1
    rw [ha, hmem f hf] at this
    simpa using this)
  have hboth : ∀ k c, r.lookup k = some c → ∃ a b, p.lookup k = some a ∧ q.lookup k = some b ∧ a.kind = b.kind ∧ c = ⟨a.kind, a.vals ++ b.vals⟩ := by
    intro k c hc
    have hk := hs k
    rw [hr] at hc
    cases hpk : p.lookup k with
    | none =>
      cases hqk : q.lookup k with
      | none => simp [hpk, hqk] at hc
      | some b => simp [hpk, hqk] at hk
    | some a =>
      cases hqk : q.lookup k with
      | none => simp [hpk, hqk] at hk
      | some b =>
        simp only [hpk, hqk, Option.some.injEq, Option.map_some] at hc hk
        exact ⟨a, b, rfl, rfl, hk, hc.symm⟩
  refine ⟨r, e, ⟨?_, fun k c hc => ?_, fun k c hc v hv => ?_⟩, fun k a b ha hb => by rw [hr, ha, hb]⟩
  · obtain ⟨a, ha, hka⟩ := hp.pos
    obtain ⟨b, hb, -⟩ := hq.pos
    exact ⟨⟨a.kind, a.vals ++ b.vals⟩, by rw [hr, ha, hb], hka⟩
  · obtain ⟨a, b, ha, hb, -, rfl⟩ := hboth k c hc
    rw [List.length_append, hp.len k a ha, hq.len k b hb]
  · obtain ⟨a, b, ha, hb, hkk, rfl⟩ := hboth k c hc
    rcases List.mem_append.1 hv with hv | hv
    · exact hp.comps k a ha v hv
    · show v.length = a.kind.comps d
      rw [hkk]; exact hq.comps k b hb v hv

/-- An attribute that only one of the two has is then too short. -/
theorem append_violated : ∃ (p q r : Particles ℚ), Consistent 1 1 p ∧ Consistent 1 1 q ∧ append p q = some r ∧ size r = some 2 ∧ ¬∃ n, Consistent 1 n r := by
  have hone : ∀ (nm : String) (a : Attr ℚ), ([("x", ⟨.vector, [[0]]⟩)] : Particles ℚ).lookup nm = some a → a = ⟨.vector, [[0]]⟩ := by
    intro nm a h
    simp only [List.lookup] at h
    split at h
    · exact (Option.some.inj h).symm
    · cases h
  have htwo : ∀ (nm : String) (a : Attr ℚ), ([("x", ⟨.vector, [[0]]⟩), ("m", ⟨.scalar, [[1]]⟩)] : Particles ℚ).lookup nm = some a → a = ⟨.vector, [[0]]⟩ ∨ a = ⟨.scalar, [[1]]⟩ := by
    intro nm a h
    simp only [List.lookup] at h
    split at h
    · exact Or.inl (Option.some.inj h).symm
    · split at h
      · exact Or.inr (Option.some.inj h).symm
      · cases h
  refine ⟨[("x", ⟨.vector, [[0]]⟩), ("m", ⟨.scalar, [[1]]⟩)], [("x", ⟨.vector, [[0]]⟩)], [("x", ⟨.vector, [[0], [0]]⟩), ("m", ⟨.scalar, [[1]]⟩)], ?_, ?_, by rfl, by rfl, ?_⟩
  · refine ⟨⟨_, rfl, rfl⟩, fun nm a h => ?_, fun nm a h v hv => ?_⟩
    · rcases htwo nm a h with rfl | rfl <;> rfl
    · rcases htwo nm a h with rfl | rfl <;> (rw [List.mem_singleton.1 hv]; rfl)
  · refine ⟨⟨_, rfl, rfl⟩, fun nm a h => ?_, fun nm a h v hv => ?_⟩
    · rw [hone nm a h]; rfl
    · rw [hone nm a h] at hv ⊢; rw [List.mem_singleton.1 hv]; rfl
  · rintro ⟨n, h⟩
    have h1 := h.len "x" ⟨.vector, [[0], [0]]⟩ rfl
    have h2 := h.len "m" ⟨.scalar, [[1]]⟩ rfl
    simp at h1 h2
    omega

/-- Attributes with one name and two kinds are refused. -/
theorem append_refuses {p q : Particles K} (hn : (q.map Prod.fst).Nodup) {name : String} {a b : Attr K} (ha : p.lookup name = some a) (hb : (name, b) ∈ q) (hk : a.kind ≠ b.kind) : append p q = none := by
  induction q generalizing p with
  | nil => simp at hb
  | cons e q ih =>
    rw [append, List.foldlM_cons]
    rw [List.map_cons, List.nodup_cons] at hn
    rcases List.mem_cons.1 hb with h | h
    · subst h
      simp [appendOne, tryGet, ha, hk]
    · have hne : name ≠ e.1 := fun h' => hn.1 (List.mem_map.2 ⟨_, h, h'⟩)
      cases h1 : appendOne p e with
      | none => rfl
      | some p1 =>
        refine ih hn.2 ?_ h
        unfold appendOne at h1
        split at h1
        · split_ifs at h1
          rw [← Option.some.inj h1, lookup_put, if_neg hne]; exact ha
        · rw [← Option.some.inj h1, lookup_put, if_neg hne]; exact ha

/-- `retrievePositions` gives the positions of all particles. -/
theorem positions_exact {p : Particles K} (h : Consistent d n p) : ∃ l, retrievePositions p = some l ∧ l.length = n ∧ p.lookup "x" = some ⟨.vector, l⟩ := by
  obtain ⟨⟨ax, hax, hkx⟩, hlen, -⟩ := h
  refine ⟨ax.vals, ?_, hlen _ _ hax, ?_⟩
  · simp [retrievePositions, attrOf, attr, tryGet, hax, hkx]
  · rw [hax, ← hkx]

/-- In space the magnitude of a deformation gradient is its determinant. -/
theorem stress_partial {p : Particles K} (h : Consistent 3 n p) (hn : 0 < n) {F : List (List K)} (hF : p.lookup "F" = some ⟨.matrix, F⟩) (junk : Nat → List K) :
    retrieveStressMagnitude p junk = some (F.map fun v => (toMatrix v).det) := by
  obtain ⟨⟨ax, hax, hkx⟩, hlen, hcomp⟩ := h
  have hX : attrOf p .vector "x" = some ax.vals := by simp [attrOf, attr, tryGet, hax, hkx]
  have hFv : attrOf p .matrix "F" = some F := by simp [attrOf, attr, tryGet, hF]
  have hl1 := hlen _ _ hax
  have hl2 : F.length = n := hlen _ _ hF
  have hh : hasAttr p "F" true = true := by simp [hasAttr, tryGet, hF, hl2, hn]
  have hmap : ((List.range ax.vals.length).map fun i => if i < F.length then F.getD i [] else junk i) = F := by
    refine List.ext_getElem (by simp [hl1, hl2]) fun i h1 h2 => ?_
    simp [h2]
  have hdet : ∀ v ∈ F, detRow v = some (toMatrix v).det := by
    intro v hv
    have h9 : v.length = 9 := hcomp _ _ hF v hv
    match v, h9 with
    | [a0, a1, a2, a3, a4, a5, a6, a7, a8], _ =>
      rw [Matrix.det_fin_three]
      simp [detRow, toMatrix]
      ring
  simp only [retrieveStressMagnitude, hX, hFv, hh, Option.bind_some, if_true]
  rw [if_pos (by omega), hmap]
  clear hmap hFv hF hh hl2
  induction F with
  | nil => rfl
  | cons v F ih => rw [List.mapM_cons, hdet v (by simp), ih fun w hw => hdet w (by simp [hw])]; rfl

/-- In the plane it reads beyond the four components. -/
theorem stress_plane_violated {p : Particles K} (h : Consistent 2 n p) (hn : 0 < n) {F : List (List K)} (hF : p.lookup "F" = some ⟨.matrix, F⟩) (junk : Nat → List K) :
    retrieveStressMagnitude p junk = none := by
  obtain ⟨⟨ax, hax, hkx⟩, hlen, hcomp⟩ := h
  have hX : attrOf p .vector "x" = some ax.vals := by simp [attrOf, attr, tryGet, hax, hkx]
  have hFv : attrOf p .matrix "F" = some F := by simp [attrOf, attr, tryGet, hF]
  have hl1 := hlen _ _ hax
  have hl2 : F.length = n := hlen _ _ hF
  have hh : hasAttr p "F" true = true := by simp [hasAttr, tryGet, hF, hl2, hn]
  have hmap : ((List.range ax.vals.length).map fun i => if i < F.length then F.getD i [] else junk i) = F := by
    refine List.ext_getElem (by simp [hl1, hl2]) fun i h1 h2 => ?_
    simp [h2]
  simp only [retrieveStressMagnitude, hX, hFv, hh, Option.bind_some, if_true]
  rw [if_pos (by omega), hmap]
  cases F with
  | nil => simp at hl2; omega
  | cons v F =>
    have h4 : v.length = 4 := hcomp _ _ hF v (by simp)
    match v, h4 with
    | [a0, a1, a2, a3], _ => rw [List.mapM_cons]; simp [detRow]

/-- Without a deformation gradient, the change of volume is to be returned, but the gradient is read, which throws. -/
theorem stress_volume_violated {p : Particles K} (h : Consistent d n p) (hn : 0 < n) {J : List (List K)} (hJ : p.lookup "J" = some ⟨.scalar, J⟩) (hF : p.lookup "F" = none) (junk : Nat → List K) :
    retrieveStressMagnitude p junk = none := by
  obtain ⟨⟨ax, hax, hkx⟩, hlen, -⟩ := h
  have hX : attrOf p .vector "x" = some ax.vals := by simp [attrOf, attr, tryGet, hax, hkx]
  have hl : J.length = n := hlen _ _ hJ
  have h1 : hasAttr p "F" true = false := by simp [hasAttr, tryGet, hF]
  have h2 : hasAttr p "J" true = true := by simp [hasAttr, tryGet, hJ, hl, hn]
  have h3 : attrOf p .matrix "F" = none := by simp [attrOf, attr, tryGet, hF]
  simp [retrieveStressMagnitude, hX, h1, h2, h3]

/-- If the gradient is there but empty, zeros are returned instead of the changes of volume. -/
theorem stress_empty_violated {p : Particles K} {X J : List (List K)} (hX : p.lookup "x" = some ⟨.vector, X⟩) (hJ : p.lookup "J" = some ⟨.scalar, J⟩) (hF : p.lookup "F" = some ⟨.matrix, []⟩) (junk : Nat → List K) :
    retrieveStressMagnitude p junk = some (List.replicate X.length 0) := by
  have h0 : attrOf p .vector "x" = some X := by simp [attrOf, attr, tryGet, hX]
  have h1 : hasAttr p "F" true = false := by simp [hasAttr, tryGet, hF]
  have h3 : attrOf p .matrix "F" = some [] := by simp [attrOf, attr, tryGet, hF]
  simp only [retrieveStressMagnitude, h0, h1, h3, Option.bind_some, Bool.false_eq_true, if_false, List.length_nil, if_true]
  rw [List.map_const']
  split_ifs <;> rfl

/-- Without both, the magnitudes are zero. -/
theorem stress_none {p : Particles K} (h : Consistent d n p) (hJ : p.lookup "J" = none) (hF : p.lookup "F" = none) (junk : Nat → List K) : retrieveStressMagnitude p junk = some (List.replicate n 0) := by
  obtain ⟨⟨ax, hax, hkx⟩, hlen, -⟩ := h
  have hX : attrOf p .vector "x" = some ax.vals := by simp [attrOf, attr, tryGet, hax, hkx]
  have h1 : hasAttr p "F" true = false := by simp [hasAttr, tryGet, hF]
  have h2 : hasAttr p "J" true = false := by simp [hasAttr, tryGet, hJ]
  simp only [retrieveStressMagnitude, hX, h1, h2, Option.bind_some, Bool.false_eq_true, if_false]
  rw [List.map_const', hlen _ _ hax]

/-- A particle in space with a deformation gradient. -/
example : retrieveStressMagnitude ([("F", ⟨.matrix, [[2, 0, 0, 0, 3, 0, 0, 1, 5]]⟩), ("x", ⟨.vector, [[0, 0, 0]]⟩)] : Particles ℚ) (fun _ => []) = some [30] := by decide +kernel

end Verif.Particles
