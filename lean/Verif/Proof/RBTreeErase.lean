import Verif.Proof.RBTreeSwap

/-!
Helper lemmas for `RBTree`: removal.
-/
namespace Verif.RBTree

variable {K V : Type} {s : St K V} {hl hr : Nat} {f g : Frame K V} {fs rs : List (Frame K V)} {t : T K V}

/-! ## The ends of the list -/

theorem up_of_pre (h : Nat) {fs : List (Frame K V)} (hp : pre fs = []) : up h fs = firstPtr h (post fs) := by
  cases fs with
  | nil => rfl
  | cons f fs =>
    cases hf : f.lft
    · simp [pre, hf] at hp
    · simp [post, hf]

theorem up_of_post (h : Nat) {fs : List (Frame K V)} (hp : post fs = []) : up h fs = lastPtr h (pre fs) := by
  cases fs with
  | nil => rfl
  | cons f fs =>
    cases hf : f.lft
    · simp [pre, hf, lastPtr_append]
      simp [lastPtr]
    · simp [post, hf] at hp

theorem firstPtr_default {a b : Nat} {m : List (Nat × K × V)} (h : m ≠ []) : firstPtr a m = firstPtr b m := by
  cases m <;> simp_all

theorem lastPtr_default {a b : Nat} {m : List (Nat × K × V)} (h : m ≠ []) : lastPtr a m = lastPtr b m :=
  firstPtr_default (by simpa using h)

theorem list_ne_nil {t : T K V} (h : t ≠ .nil) : t.list ≠ [] := by
  cases t <;> simp_all

theorem retractLeft_ok {p c l k v r} (h : Conf s hl hr fs (.node p c l k v r))
    (he : hl = firstPtr s.header (plug fs (.node p c l k v r)).list) :
    Ok (retractLeft p) s fun _ s' =>
      Conf s' (firstPtr s.header (pre fs ++ l.list ++ (r.list ++ post fs))) hr fs (.node p c l k v r) ∧
        Same s s' := by
  have hi := h.first_iff he
  obtain ⟨t1, tl, tr⟩ := h.tr
  obtain ⟨hk, hv, hh⟩ := h.hd
  have hfu := h.fuel
  have h0 : 0 ∉ r.ids := by
    have := h.nd
    simp only [T.ids_node, List.nodup_cons, List.mem_append, List.mem_cons] at this
    tauto
  unfold retractLeft
  simp only [ok_bind, ok_theHeader, ok_rd, hh, Option.some.injEq, exists_eq_left']
  by_cases e : hl = p
  · have e' := hi.1 e
    rw [e', List.nil_append]
    rw [if_pos e, ok_bind, ok_rd]
    refine ⟨_, t1, ?_⟩
    dsimp only
    by_cases er : r = .nil
    · subst er
      rw [T.ptr_nil, if_pos rfl]
      rw [up_of_pre _ (List.append_eq_nil_iff.1 e').1]
      exact wrHeader_ok h fun _ _ _ => rfl
    · rw [if_neg (mt (T.ptr_eq_zero h0).1 er), ok_bind, ok_fuelled,
        leftmost_ok s.next tr h0 er (by simp at hfu; omega), firstPtr_append, if_neg (list_ne_nil er),
        firstPtr_default (b := s.header) (list_ne_nil er)]
      exact wrHeader_ok h fun _ _ _ => rfl
  · rw [if_neg e, ok_pure, firstPtr_append, if_neg (mt hi.2 e)]
    refine ⟨?_, Same.refl _⟩
    rw [plug_list, T.list_node, ← List.append_assoc, List.append_assoc, firstPtr_append, if_neg (mt hi.2 e)] at he
    rw [← he]
    exact h

theorem retractRight_ok {p c l k v r} (h : Conf s hl hr fs (.node p c l k v r))
    (he : hr = lastPtr s.header (plug fs (.node p c l k v r)).list) :
    Ok (retractRight p) s fun _ s' =>
      Conf s' hl (lastPtr s.header (pre fs ++ l.list ++ (r.list ++ post fs))) fs (.node p c l k v r) ∧
        Same s s' := by
  have hi := h.last_iff he
  obtain ⟨t1, tl, tr⟩ := h.tr
  obtain ⟨hk, hv, hh⟩ := h.hd
  have hfu := h.fuel
  have h0 : 0 ∉ l.ids := by
    have := h.nd
    simp only [T.ids_node, List.nodup_cons, List.mem_append, List.mem_cons] at this
    tauto
  unfold retractRight
  simp only [ok_bind, ok_theHeader, ok_rd, hh, Option.some.injEq, exists_eq_left']
  by_cases e : hr = p
  · have e' := hi.1 e
    rw [e', List.append_nil]
    rw [if_pos e, ok_bind, ok_rd]
    refine ⟨_, t1, ?_⟩
    dsimp only
    by_cases er : l = .nil
    · subst er
      rw [T.ptr_nil, if_pos rfl]
      rw [up_of_post _ (List.append_eq_nil_iff.1 e').2, T.list_nil, List.append_nil]
      exact wrHeader_ok h fun _ _ _ => rfl
    · rw [if_neg (mt (T.ptr_eq_zero h0).1 er), ok_bind, ok_fuelled,
        rightmost_ok s.next tl h0 er (by simp at hfu; omega), lastPtr_append, if_neg (list_ne_nil er),
        lastPtr_default (b := s.header) (list_ne_nil er)]
      exact wrHeader_ok h fun _ _ _ => rfl
  · rw [if_neg e, ok_pure, lastPtr_append, if_neg (mt hi.2 e)]
    refine ⟨?_, Same.refl _⟩
    have e1 : (plug fs (.node p c l k v r)).list = (pre fs ++ l.list ++ [(p, k, v)]) ++ (r.list ++ post fs) := by
      simp [plug_list]
    rw [e1, lastPtr_append, if_neg (mt hi.2 e)] at he
    rw [← he]
    exact h

/-! ## Unlinking -/

theorem unlinkLeaf_ok {p c k v} (h : Conf s hl hr (f :: fs) (.node p c .nil k v .nil)) :
    Ok (unlinkLeaf p) s fun _ s' => Conf s' hl hr (f :: fs) .nil ∧ Same s s' := by
  have t1 := h.tr.1
  obtain ⟨c1, c2, c3⟩ := h.cx
  obtain ⟨hk, hv, hh⟩ := h.hd
  have hnd := h.nd
  have hlv := h.lv
  have hnx := h.nx
  simp only [T.ids_node, T.ids_nil, List.nil_append, idsC_cons, List.mem_cons, List.mem_append, List.cons_append,
    List.nodup_cons, List.nodup_append] at hnd hlv hnx
  have hfp : f.id ≠ p := by grind
  simp only [T.ptr_node] at c1
  have key : ∀ {w : Node K V → Node K V}, (∀ a, w (f.cell a p) = f.cell a 0) →
      Ok (do
        free p
        wr f.id w) s fun _ s' => Conf s' hl hr (f :: fs) .nil ∧ Same s s' := by
    intro w hw
    rw [ok_bind, ok_free]
    refine ⟨_, t1, ?_⟩
    rw [ok_wr]
    refine ⟨_, by rw [set_heap, if_neg hfp]; exact c1, ⟨?_, ⟨hk, hv, ?_⟩, ?_, trivial, ⟨?_, ?_, ?_⟩, ?_, ?_⟩, rfl, rfl,
      rfl⟩
    · simp only [set_header, T.ids_nil, List.nil_append, idsC_cons, List.cons_append, List.nodup_cons, List.mem_cons,
        List.mem_append, List.nodup_append]
      grind
    · have h1 : s.header ≠ f.id := by grind
      have h2 : s.header ≠ p := by grind
      simp [h1, h2, hh]
    · simp only [set_root]
      rw [h.rt]
      exact plug_ptr f fs _ _
    · simp [hw]
    · refine c2.congr fun x hx => ?_
      have h1 : x ≠ f.id := by grind
      have h2 : x ≠ p := by grind
      simp [h1, h2]
    · refine c3.congr fun x hx => ?_
      have h1 : x ≠ f.id := by grind
      have h2 : x ≠ p := by grind
      simp [h1, h2]
    · intro x
      simp only [set_heap, set_header, T.ids_nil, List.nil_append, idsC_cons, List.cons_append, List.mem_cons,
        List.mem_append]
      by_cases h1 : x = f.id
      · simp [h1]
      · by_cases h2 : x = p
        · simp only [h1, if_false, h2, if_true]
          grind
        · simp only [h1, if_false, h2, hlv]
          simp [h2]
    · intro x hx
      simp only [set_header, T.ids_nil, List.nil_append, idsC_cons, List.cons_append, List.mem_cons,
        List.mem_append, set_next] at hx ⊢
      exact hnx x (by tauto)
  unfold unlinkLeaf
  rw [ok_bind, h.getDirection]
  simp only [ok_bind, ok_rd, t1, Option.some.injEq, exists_eq_left', up_cons, c1]
  cases hf : f.lft
  · have hd : dirOf (f :: fs) = .right := by simp [dirOf, hf]
    have := key (w := fun q => { q with right := 0 }) fun a => by simp [Frame.cell, hf]
    rw [hd, if_neg (by simp)]
    simpa [Frame.cell, hf] using this
  · have hd : dirOf (f :: fs) = .left := by simp [dirOf, hf]
    have := key (w := fun q => { q with left := 0 }) fun a => by simp [Frame.cell, hf]
    rw [hd, if_pos rfl]
    simpa [Frame.cell, hf] using this

/-- Common part of both cases of `removeSingle`. -/
theorem removeSingle_ok {p k v l r q a k' v' b} (h : Conf s hl hr fs (.node p false l k v r))
    (hc : (l = .nil ∧ r = .node q true a k' v' b) ∨ (r = .nil ∧ l = .node q true a k' v' b)) :
    Ok (removeSingle p) s fun _ s' => Conf s' hl hr fs (.node q false a k' v' b) ∧ Same s s' := by
  obtain ⟨hk, hv, hh⟩ := h.hd
  have hnd := h.nd
  have hlv := h.lv
  have hnx := h.nx
  have tp := h.tr.1
  have tq : s.heap q = some ⟨true, p, a.ptr, b.ptr, k', v'⟩ ∧ Tr s.heap q a ∧ Tr s.heap q b := by
    rcases hc with ⟨rfl, rfl⟩ | ⟨rfl, rfl⟩
    · exact h.tr.2.2
    · exact h.tr.2.1
  have hids : ∀ x, x ∈ (T.node p false l k v r).ids ↔ x = p ∨ x ∈ (T.node q false a k' v' b).ids := by
    intro x
    rcases hc with ⟨rfl, rfl⟩ | ⟨rfl, rfl⟩
    · simp
    · simp; tauto
  have hnd' : (0 :: s.header :: p :: ((T.node q false a k' v' b).ids ++ idsC fs)).Nodup := by
    refine (List.Perm.nodup_iff (List.perm_iff_count.2 fun x => ?_)).1 hnd
    rcases hc with ⟨rfl, rfl⟩ | ⟨rfl, rfl⟩ <;> simp [List.count_append, List.count_cons] <;> omega
  have hnd2 := hnd'
  simp only [T.ids_node, List.nodup_cons, List.nodup_append, List.mem_append, List.mem_cons,
      List.cons_append, List.append_assoc] at hnd2
  have hrepl : (if l.ptr = 0 then r.ptr else l.ptr) = q := by
    rcases hc with ⟨rfl, rfl⟩ | ⟨rfl, rfl⟩
    · rfl
    · rw [if_neg]
      · rfl
      · show q ≠ 0
        grind
  have has : (l.ptr == 0 || r.ptr == 0) = true := by
    rcases hc with ⟨rfl, rfl⟩ | ⟨rfl, rfl⟩ <;> simp
  have hpq : q ≠ p := by grind
  unfold removeSingle
  simp only [ok_bind, ok_rd, tp, Option.some.injEq, exists_eq_left', has, ok_assert, true_and, h.getDirection, hrepl]
  have hA := relink_ok (q := q) h.cx hh (by simp only [List.nodup_cons]; grind)
  refine Ok.mono hA ?_
  rintro _ s1 ⟨b1, b2, b3, b4, b5, b6⟩
  have b7 : ∀ x, x ≠ s.header → x ∉ idsC fs → s1.heap x = s.heap x := fun x h1 h2 => b4 x (by simp [h1, h2])
  have d1 : s1.heap q = some ⟨true, p, a.ptr, b.ptr, k', v'⟩ := by
    rw [b7 q (by grind) (by grind), tq.1]
  have d2 : s1.heap p = some ⟨false, up s.header fs, l.ptr, r.ptr, k, v⟩ := by
    rw [b7 p (by grind) (by grind), tp]
  rw [d1]
  simp only [Option.some.injEq, exists_eq_left', ok_free, d2, ok_wr, set_heap,
    if_neg hpq, d1]
  simp only [Bool.false_eq_true, if_false, ok_bind, ok_rd, set_heap, if_true, Option.some.injEq, exists_eq_left', paint, ok_wr]
  have e1 : ∀ x, x ≠ p → x ≠ q → (((s1.set p none).set q (some ⟨true, up s.header fs, a.ptr, b.ptr, k', v'⟩)).set q
      (some ⟨false, up s.header fs, a.ptr, b.ptr, k', v'⟩)).heap x = s1.heap x := by
    intro x h1 h2
    simp [h1, h2]
  have hhp : s.header ≠ p := by grind
  have hhq : s.header ≠ q := by grind
  refine ⟨⟨?_, ⟨hk, hv, ?_⟩, ?_, ⟨?_, ?_, ?_⟩, ?_, ?_, ?_⟩, b6⟩
  · simp only [set_header, b6.1]
    simp only [List.nodup_cons, List.mem_cons] at hnd' ⊢
    tauto
  · rw [set_header, set_header, set_header, b6.1, e1 _ hhp hhq, set_root, set_root, set_root, ← b2, b6.1]
  · rw [set_root, set_root, set_root, b3, h.rt]
    cases fs with
    | nil => rfl
    | cons f fs => exact plug_ptr f fs _ _
  · simp [b6.1]
  · refine tq.2.1.congr fun x hx => ?_
    rw [e1 x (by grind) (by grind), b7 x (by grind) (by grind)]
  · refine tq.2.2.congr fun x hx => ?_
    rw [e1 x (by grind) (by grind), b7 x (by grind) (by grind)]
  · refine b1.congr fun x hx => ?_
    rw [e1 x (by grind) (by grind)]
  · intro x
    rw [set_header, set_header, set_header, b6.1]
    have h1 := hlv x
    have h2 := b5 x
    rw [List.mem_cons, List.mem_append, hids] at h1
    by_cases hxp : x = p
    · subst hxp
      simp only [set_heap, if_neg hpq.symm, if_true, List.mem_cons, List.mem_append, T.ids_node]
      grind
    · by_cases hxq : x = q
      · subst hxq
        simp
      · rw [e1 x hxp hxq, h2, h1, List.mem_cons, List.mem_append]
        simp only [hxp, false_or]
  · intro x hx
    rw [set_header, set_header, set_header, b6.1] at hx
    rw [set_next, set_next, set_next, b6.2.2]
    refine hnx x ?_
    rw [List.mem_cons, List.mem_append] at hx ⊢
    rw [hids]
    tauto

theorem fixBlack_ne_nil (f : Frame K V) (fs above : List (Frame K V)) : fixBlack f fs above ≠ [] := by
  unfold fixBlack
  split
  · simp
  · dsimp only
    repeat' split
    all_goals simp

theorem fixD_ne_nil {fs : List (Frame K V)} (h : fs ≠ []) : fixD fs ≠ [] := by
  cases fs with
  | nil => exact absurd rfl h
  | cons f fs =>
    unfold fixD
    repeat' split
    all_goals exact fixBlack_ne_nil _ _ _

/-- Removal of a node with at most one child, which is not the last one. -/
theorem unlink_ok {p c l k v r n} (h : Conf s hl hr fs (.node p c l k v r)) (hlr : l = .nil ∨ r = .nil)
    (hc : CRB fs n) (ht : RB (.node p c l k v r) n) (htop : c = true → topBlack fs)
    (hne : ¬ (fs = [] ∧ l = .nil ∧ r = .nil)) :
    Ok (unlink p) s fun _ s' => ∃ t n', Conf s' hl hr [] t ∧ t.list = pre fs ++ l.list ++ (r.list ++ post fs) ∧
      RB t n' ∧ t.isRed = false ∧ Same s s' := by
  have t1 := h.tr.1
  have hnd := h.nd
  simp only [T.ids_node, List.nodup_cons, List.mem_append, List.mem_cons] at hnd
  have hl0 : 0 ∉ l.ids := by tauto
  have hr0 : 0 ∉ r.ids := by tauto
  have hfu := h.fuel
  unfold unlink
  simp only [ok_bind, ok_rd, t1, Option.some.injEq, exists_eq_left']
  have hpp : (l.ptr = 0 ∧ r.ptr = 0) ↔ (l = .nil ∧ r = .nil) := by rw [T.ptr_eq_zero hl0, T.ptr_eq_zero hr0]
  by_cases hlf : l = .nil ∧ r = .nil
  · rw [if_pos (hpp.2 hlf)]
    obtain ⟨rfl, rfl⟩ := hlf
    have hfs : fs ≠ [] := fun e => hne ⟨e, rfl, rfl⟩
    have hemp : fs.isEmpty = false := by cases fs <;> simp_all
    unfold removeLeaf
    rw [ok_bind, h.isRoot, hemp]
    simp only [ok_bind, ok_assert, Bool.not_false, true_and, ok_rd, t1, Option.some.injEq, exists_eq_left']
    cases ht with
    | red a b _ _ =>
      rw [if_pos rfl]
      have := a.nil_height
      subst this
      obtain ⟨f, gs, rfl⟩ : ∃ f gs, fs = f :: gs := by
        cases fs with
        | nil => exact absurd rfl hfs
        | cons f gs => exact ⟨f, gs, rfl⟩
      refine Ok.mono (unlinkLeaf_ok h) ?_
      rintro _ s' ⟨h1, h2⟩
      obtain ⟨n', h5, h6⟩ := plug_rb hc .nil (by simp)
      exact ⟨plug (f :: gs) .nil, n', conf_plug.1 h1, by rw [plug_list]; simp, h5, h6, h2⟩
    | black a b =>
      have := a.nil_height
      subst this
      rw [if_neg (by simp), ok_bind, ok_fuelled]
      refine Ok.mono (maintainAfterRemove_ok s.next h hc (by omega)) ?_
      rintro _ s1 ⟨h1, h2⟩
      have hcr := fixD_rb hc
      have hp := fixD_pre fs
      have hq := fixD_post fs
      have hnn := fixD_ne_nil hfs
      revert h1 hcr hp hq hnn
      generalize fixD fs = gs'
      intro h1 hcr hp hq hnn
      obtain ⟨f, gs, rfl⟩ : ∃ f gs, gs' = f :: gs := by
        cases gs' with
        | nil => exact absurd rfl hnn
        | cons f gs => exact ⟨f, gs, rfl⟩
      refine Ok.mono (unlinkLeaf_ok h1) ?_
      rintro _ s' ⟨h3, h4⟩
      obtain ⟨n', h5, h6⟩ := plug_rb hcr .nil (by simp)
      exact ⟨plug (f :: gs) .nil, n', conf_plug.1 h3, by rw [plug_list, hp, hq]; simp, h5, h6, h2.trans h4⟩
  · rw [if_neg (mt hpp.1 hlf)]
    -- the node is black and its child is red
    have hone : ∀ {x : T K V}, RB x 0 → x ≠ .nil → ∃ q k' v', x = .node q true .nil k' v' .nil := by
      intro x hx hxn
      cases hx with
      | nil => exact absurd rfl hxn
      | red a b c d =>
        have hz : ∀ {y : T K V}, RB y 0 → y.isRed = false → y = .nil := by
          intro y hy hyr
          cases hy with
          | nil => rfl
          | red => simp at hyr
        exact ⟨_, _, _, by rw [hz a c, hz b d]⟩
    have hz : ∀ {y : T K V}, RB y 0 → y.isRed = false → y = .nil := by
      intro y hy hyr
      cases hy with
      | nil => rfl
      | red => simp at hyr
    have fin : ∀ q k' v', (l.list ++ r.list = [(q, k', v')]) → c = false →
        ((l = .nil ∧ r = .node q true .nil k' v' .nil) ∨ (r = .nil ∧ l = .node q true .nil k' v' .nil)) → n = 1 →
        Ok (removeSingle p) s fun _ s' => ∃ t n', Conf s' hl hr [] t ∧
          t.list = pre fs ++ l.list ++ (r.list ++ post fs) ∧ RB t n' ∧ t.isRed = false ∧ Same s s' := by
      intro q k' v' hls hcf hcase hn1
      subst hcf hn1
      refine Ok.mono (removeSingle_ok h hcase) ?_
      rintro _ s' ⟨h1, h2⟩
      obtain ⟨n', h5, h6⟩ := plug_rb hc (t := .node q false .nil k' v' .nil) (.black .nil .nil) (by simp)
      refine ⟨_, n', conf_plug.1 h1, ?_, h5, h6, h2⟩
      have : pre fs ++ l.list ++ (r.list ++ post fs) = pre fs ++ (l.list ++ r.list) ++ post fs := by simp
      rw [this, hls, plug_list]
      simp
    rcases hlr with rfl | rfl
    · have hrn : r ≠ .nil := fun e => hlf ⟨rfl, e⟩
      cases ht with
      | red a b c d =>
        have := a.nil_height
        subst this
        exact absurd (hz b d) hrn
      | black a b =>
        have := a.nil_height
        subst this
        obtain ⟨q, k', v', e⟩ := hone b hrn
        exact fin q k' v' (by simp [e]) rfl (.inl ⟨rfl, e⟩) rfl
    · have hrn : l ≠ .nil := fun e => hlf ⟨e, rfl⟩
      cases ht with
      | red a b c d =>
        have := b.nil_height
        subst this
        exact absurd (hz a c) hrn
      | black a b =>
        have := b.nil_height
        subst this
        obtain ⟨q, k', v', e⟩ := hone a hrn
        exact fin q k' v' (by simp [e]) rfl (.inr ⟨rfl, e⟩) rfl

/-! ## `release` and `clear` -/

/-- `release` frees everything below the node. -/
theorem release_ok : ∀ (fuel : Nat) {s : St K V} {par id c l k v r},
    Tr s.heap par (.node id c l k v r : T K V) → (0 :: (T.node id c l k v r).ids).Nodup →
    (T.node id c l k v r).ids.length ≤ fuel →
    Ok (release fuel id) s fun _ s' => s'.heap id ≠ none ∧ (∀ x, x ∈ l.ids ∨ x ∈ r.ids → s'.heap x = none) ∧
      (∀ x, x ∉ (T.node id c l k v r).ids → s'.heap x = s.heap x) ∧ Same s s' ∧ s'.root = s.root := by
  intro fuel
  induction fuel with
  | zero => intro s par id c l k v r _ _ h; simp at h
  | succ fuel ih =>
    intro s par id c l k v r ht hnd hf
    obtain ⟨t1, tl, tr⟩ := ht
    simp only [T.ids_node, List.length_append, List.length_cons] at hf
    simp only [T.ids_node, List.nodup_cons, List.nodup_append, List.mem_append, List.mem_cons] at hnd
    -- what happens to one child
    have child : ∀ {s : St K V} {t : T K V}, Tr s.heap id t → t ≠ .nil → (0 :: t.ids).Nodup → t.ids.length ≤ fuel →
        Ok (do
          release fuel t.ptr
          free t.ptr) s fun _ s' => (∀ x, x ∈ t.ids → s'.heap x = none) ∧
            (∀ x, x ∉ t.ids → s'.heap x = s.heap x) ∧ Same s s' ∧ s'.root = s.root := by
      intro s t ht htn hn hfu
      cases t with
      | nil => exact absurd rfl htn
      | node i c' l' k' v' r' =>
        rw [ok_bind]
        refine Ok.mono (ih ht hn hfu) ?_
        rintro _ s1 ⟨h1, h2, h3, h4, h5⟩
        rw [T.ptr_node, ok_free]
        obtain ⟨w, hw⟩ : ∃ w, s1.heap i = some w := Option.ne_none_iff_exists'.1 h1
        refine ⟨w, hw, ?_, ?_, h4, h5⟩
        · intro x hx
          simp only [T.ids_node, List.mem_append, List.mem_cons] at hx
          by_cases e : x = i
          · simp [e]
          · simp only [set_heap, if_neg e]
            exact h2 x (by tauto)
        · intro x hx
          have e : x ≠ i := by rintro rfl; simp at hx
          simp only [set_heap, if_neg e]
          exact h3 x hx
    unfold release
    simp only [ok_bind, ok_wr, ok_rd, t1, Option.some.injEq, exists_eq_left', set_heap, if_true]
    generalize hs1 : s.set id (some ⟨c, 0, l.ptr, r.ptr, k, v⟩) = s1
    have a1 : s1.heap id = some ⟨c, 0, l.ptr, r.ptr, k, v⟩ := by rw [← hs1]; simp
    have a2 : ∀ x, x ≠ id → s1.heap x = s.heap x := by intro x hx; rw [← hs1]; simp [hx]
    have a3 : Same s s1 ∧ s1.root = s.root := by rw [← hs1]; exact ⟨⟨rfl, rfl, rfl⟩, rfl⟩
    clear hs1
    have hl0 : 0 ∉ l.ids := by grind
    have hr0 : 0 ∉ r.ids := by grind
    have hself : ∀ {t : T K V}, t ≠ .nil → 0 ∉ t.ids → id ∉ t.ids → t.ptr ≠ id := by
      intro t h1 h2 h3 e
      have := T.ptr_mem (t := t) (mt (T.ptr_eq_zero h2).1 h1)
      rw [e] at this
      exact h3 this
    -- the right half
    have right : ∀ {s2 : St K V}, s2.heap id ≠ none → (∀ x, x ∈ l.ids → s2.heap x = none) →
        (∀ x, x ≠ id → x ∉ l.ids → s2.heap x = s.heap x) → Same s s2 → s2.root = s.root →
        Ok (if r.ptr = 0 then pure () else if r.ptr = id then pure ()
          else do
            release fuel r.ptr
            free r.ptr) s2 fun _ s' => s'.heap id ≠ none ∧ (∀ x, x ∈ l.ids ∨ x ∈ r.ids → s'.heap x = none) ∧
          (∀ x, x ∉ (T.node id c l k v r).ids → s'.heap x = s.heap x) ∧ Same s s' ∧ s'.root = s.root := by
      intro s2 b1 b2 b3 b4 b5
      by_cases e : r = .nil
      · subst e
        rw [T.ptr_nil, if_pos rfl, ok_pure]
        refine ⟨b1, ?_, ?_, b4, b5⟩
        · intro x hx
          exact b2 x (by simpa using hx)
        · intro x hx
          simp only [T.ids_node, List.mem_append, List.mem_cons] at hx
          exact b3 x (by tauto) (by tauto)
      · rw [if_neg (mt (T.ptr_eq_zero hr0).1 e), if_neg (hself e hr0 (by grind))]
        refine Ok.mono (child (tr.congr fun x hx => b3 x ?_ ?_) e ?_ (by omega)) ?_
        · rintro rfl; grind
        · grind
        · simp only [List.nodup_cons]; exact ⟨hr0, by grind⟩
        rintro _ s3 ⟨c1, c2, c3, c4⟩
        refine ⟨?_, ?_, ?_, b4.trans c3, c4.trans b5⟩
        · rw [c2 id (by grind)]; exact b1
        · intro x hx
          by_cases hxr : x ∈ r.ids
          · exact c1 x hxr
          · rw [c2 x hxr]; exact b2 x (by tauto)
        · intro x hx
          simp only [T.ids_node, List.mem_append, List.mem_cons] at hx
          rw [c2 x (by tauto)]
          exact b3 x (by tauto) (by tauto)
    by_cases e : l = .nil
    · subst e
      rw [T.ptr_nil, if_pos rfl]
      exact right (by rw [a1]; simp) (by simp) (fun x hx _ => a2 x hx) a3.1 a3.2
    · rw [if_neg (mt (T.ptr_eq_zero hl0).1 e), if_neg (hself e hl0 (by grind))]
      have hch := child (s := s1) (tl.congr fun x hx => a2 x (by rintro rfl; grind)) e
        (by simp only [List.nodup_cons]; exact ⟨hl0, by grind⟩) (by omega)
      rw [ok_bind] at hch
      rw [ok_bind]
      refine Ok.mono hch ?_
      intro _ s2 hs2
      rw [ok_bind]
      refine Ok.mono hs2 ?_
      rintro _ s3 ⟨c1, c2, c3, c4⟩
      have hid : s3.heap id = some ⟨c, 0, l.ptr, r.ptr, k, v⟩ := by rw [c2 id (by grind), a1]
      rw [ok_bind, ok_wr]
      refine ⟨_, hid, ?_⟩
      refine right (by simp) ?_ ?_ (a3.1.trans c3) (c4.trans a3.2)
      · intro x hx
        have : x ≠ id := by rintro rfl; grind
        simp [this, c1 x hx]
      · intro x hx hxl
        simp only [set_heap, if_neg hx]
        rw [c2 x hxl, a2 x hx]

theorem clear_ok (h : Conf s hl hr [] t) :
    Ok (clear : M K V Unit) s fun _ s' => Conf s' s.header s.header [] .nil ∧ s'.header = s.header ∧ s'.next = s.next ∧
      s'.cnt = 0 := by
  have h1 := wrHeader_ok (f := fun n => { n with left := s.header, right := s.header }) (hl' := s.header)
    (hr' := s.header) h fun _ _ _ => rfl
  unfold clear
  simp only [ok_bind, ok_theHeader]
  refine Ok.mono h1 ?_
  rintro _ s1 ⟨h2, h3⟩
  rw [ok_theRoot]
  cases t with
  | nil =>
    have e : s1.root = 0 := h2.rt
    rw [if_pos e, ok_setCnt]
    exact ⟨h2.setCnt 0, h3.1, h3.2.2, rfl⟩
  | node id c l k v r =>
    have e : s1.root = id := h2.rt
    have hnd := h2.nd
    have hlv := h2.lv
    simp only [idsC_nil, List.append_nil] at hnd hlv
    have hfu := h2.fuel
    obtain ⟨hk, hv, hh⟩ := h2.hd
    rw [e, if_neg h2.ne_zero, ok_bind, ok_fuelled]
    have hnd' : (0 :: (T.node id c l k v r).ids).Nodup := by
      simp only [List.nodup_cons, List.mem_cons] at hnd ⊢
      tauto
    refine Ok.mono (release_ok s1.next h2.tr hnd' (by omega)) ?_
    rintro _ s2 ⟨a1, a2, a3, a4, a5⟩
    simp only [T.ids_node, List.nodup_cons, List.nodup_append, List.mem_append, List.mem_cons] at hnd hlv a3
    have hhd : s2.heap s.header = some ⟨true, s2.root, s.header, s.header, hk, hv⟩ := by
      rw [← h3.1, a3 _ (by grind), hh, a5, h3.1]
    have hhi : id ≠ s.header := by rw [← h3.1]; grind
    obtain ⟨w, hw⟩ : ∃ w, s2.heap id = some w := Option.ne_none_iff_exists'.1 a1
    simp only [ok_bind, ok_wr, hhd, Option.some.injEq, exists_eq_left', ok_free, set_heap, if_neg hhi, hw, ok_setRoot,
      ok_setCnt]
    have hs2 : s2.header = s.header := a4.1.trans h3.1
    refine ⟨⟨?_, ⟨hk, hv, ?_⟩, rfl, trivial, trivial, ?_, ?_⟩, hs2, by rw [set_next, set_next, a4.2.2, h3.2.2], trivial⟩
    · simp only [set_header, hs2]
      rw [h3.1] at hnd
      simp
      grind
    · simp [hs2, hhi.symm]
    · intro x
      simp only [set_header, hs2, T.ids_nil, idsC_nil, List.append_nil, List.mem_singleton, set_heap]
      by_cases x1 : x = id
      · subst x1
        simp [hhi]
      · by_cases x2 : x = s.header
        · simp [x2, hhi.symm]
        · simp only [if_neg x1, if_neg x2, x2, iff_false, ne_eq, not_not]
          by_cases x3 : x ∈ l.ids ∨ x ∈ r.ids
          · exact a2 x x3
          · rw [a3 x (by tauto)]
            have := hlv x
            rw [h3.1] at this
            by_contra hc
            have := this.1 hc
            tauto
    · intro x hx
      simp only [set_header, hs2, T.ids_nil, idsC_nil, List.append_nil, List.mem_singleton] at hx
      have := h2.nx s1.header (by simp)
      simp only [set_next, a4.2.2]
      rw [hx, ← h3.1]
      exact this

/-! ## `remove` -/

theorem pre_append (a b : List (Frame K V)) : pre (a ++ b) = pre b ++ pre a := by
  induction a with
  | nil => simp [pre]
  | cons f a ih => simp [pre, ih]

theorem post_append (a b : List (Frame K V)) : post (a ++ b) = post a ++ post b := by
  induction a with
  | nil => simp [post]
  | cons f a ih => simp [post, ih]

theorem pre_of_lft {rs : List (Frame K V)} (h : ∀ f ∈ rs, f.lft = true) : pre rs = [] := by
  induction rs with
  | nil => rfl
  | cons f rs ih => simp [pre, h f (by simp), ih fun g hg => h g (by simp [hg])]

theorem crb_append {x : T K V} {gs : List (Frame K V)} : ∀ {n : Nat}, RB (plug rs x) n → CRB gs n →
    ((plug rs x).isRed = true → topBlack gs) →
    ∃ n', CRB (rs ++ gs) n' ∧ RB x n' ∧ (x.isRed = true → topBlack (rs ++ gs)) := by
  induction rs generalizing x with
  | nil => intro n h1 h2 h3; exact ⟨n, h2, h1, h3⟩
  | cons f rs ih =>
    intro n h1 h2 h3
    obtain ⟨n', h4, h5, h6⟩ := ih h1 h2 h3
    rw [fill_red] at h6
    unfold Frame.fill at h5
    cases hf : f.lft <;> simp only [hf, if_true, if_false, Bool.false_eq_true] at h5
    · cases hr : f.red <;> rw [hr] at h5 h6
      · cases h5 with
        | black a b => exact ⟨_, .black hr a h4, b, fun _ => hr⟩
      · cases h5 with
        | red a b c d => exact ⟨_, .red hr a c (h6 rfl) h4, b, fun e => by rw [d] at e; simp at e⟩
    · cases hr : f.red <;> rw [hr] at h5 h6
      · cases h5 with
        | black a b => exact ⟨_, .black hr b h4, a, fun _ => hr⟩
      · cases h5 with
        | red a b c d => exact ⟨_, .red hr b d (h6 rfl) h4, a, fun e => by rw [c] at e; simp at e⟩

theorem RB.rename {i c l k v r n} (h : RB (.node i c l k v r : T K V) n) (i' : Nat) (k' : K) (v' : V) :
    RB (.node i' c l k' v' r : T K V) n := by
  cases h <;> constructor <;> assumption

section Order
variable [LinearOrder K]

theorem Conf.at_of {m t n} (h : Conf s hl hr [] t) (e : t.list = m) (h1 : hl = firstPtr s.header m)
    (h2 : hr = lastPtr s.header m) (hrb : RB t n) (hb : t.isRed = false)
    (hs : m.Pairwise fun a b => a.2.1 < b.2.1) (hc : s.cnt = m.length) : Rep s m :=
  ⟨t, by rw [← h1, ← h2]; exact h, e, ⟨n, .nil, hrb⟩, by rw [hb]; simp, hs, hc⟩

theorem removeNode_ok {m p c l k v r} (h : At s m fs (.node p c l k v r)) :
    Ok (removeNode p) s fun b s' => b = true ∧ Rep s' ((pre fs ++ l.list) ++ (r.list ++ post fs)) ∧
      s'.header = s.header ∧ s'.next = s.next := by
  have hm := h.split
  have hsort : ((pre fs ++ l.list) ++ (r.list ++ post fs)).Pairwise fun a b => a.2.1 < b.2.1 := by
    have := h.sorted
    rw [hm] at this
    exact this.sublist (by simp)
  unfold removeNode
  rw [ok_bind]
  refine Ok.mono (retractLeft_ok h.conf (by rw [h.ls])) ?_
  rintro _ s1 ⟨h1, e1⟩
  rw [ok_bind]
  refine Ok.mono (retractRight_ok h1 (by rw [h.ls, e1.1])) ?_
  rintro _ s2 ⟨h2, e2⟩
  have e12 := e1.trans e2
  rw [e1.1] at h2
  rw [ok_bind, ok_size]
  obtain ⟨n, hc, hrb⟩ := h.rb
  by_cases hone : s2.cnt = 1
  · rw [if_pos hone, ok_bind]
    refine Ok.mono (clear_ok (conf_plug.1 h2)) ?_
    rintro _ s3 ⟨h3, e3, e4, e5⟩
    have hmm : (pre fs ++ l.list) ++ (r.list ++ post fs) = [] := by
      have : m.length = 1 := by rw [← h.cnt, ← e12.2.1, hone]
      rw [hm] at this
      refine List.length_eq_zero_iff.1 ?_
      simp only [List.length_append, List.length_cons] at this ⊢
      omega
    rw [ok_pure, hmm]
    refine ⟨rfl, h3.at_of rfl ?_ ?_ .nil rfl .nil e5, e3.trans e12.1, e4.trans e12.2.2⟩
    · simp [e3]
    · simp [e3, lastPtr]
  · rw [if_neg hone]
    have hlen : (pre fs ++ l.list) ++ (r.list ++ post fs) ≠ [] := by
      intro e
      apply hone
      have e1 := congrArg List.length hm
      have e2 := congrArg List.length e
      rw [e12.2.1, h.cnt]
      simp only [List.length_append, List.length_cons, List.length_nil] at e1 e2
      omega
    have hcnt : s2.cnt - 1 = ((pre fs ++ l.list) ++ (r.list ++ post fs)).length := by
      rw [e12.2.1, h.cnt, hm]
      simp only [List.length_append, List.length_cons]
      omega
    -- the rest, from wherever the node is now
    have fin : ∀ {s3 : St K V} {gs c l' r' n}, Conf s3 (firstPtr s.header (pre fs ++ l.list ++ (r.list ++ post fs)))
        (lastPtr s.header (pre fs ++ l.list ++ (r.list ++ post fs))) gs (.node p c l' k v r') → Same s2 s3 →
        (l' = .nil ∨ r' = .nil) → CRB gs n → RB (.node p c l' k v r') n → (c = true → topBlack gs) →
        pre gs ++ l'.list ++ (r'.list ++ post gs) = pre fs ++ l.list ++ (r.list ++ post fs) →
        Ok (do
          unlink p
          setCnt (s2.cnt - 1)
          return true) s3 fun b s' => b = true ∧ Rep s' ((pre fs ++ l.list) ++ (r.list ++ post fs)) ∧
            s'.header = s.header ∧ s'.next = s.next := by
      intro s3 gs c l' r' n h3 e3 hlr hc hrb htop hls
      rw [ok_bind]
      refine Ok.mono (unlink_ok h3 hlr hc hrb htop ?_) ?_
      · rintro ⟨rfl, rfl, rfl⟩
        rw [← hls] at hlen
        simp [pre, post] at hlen
      rintro _ s4 ⟨t, n', h4, h5, h6, h7, h8⟩
      have e4 := (e12.trans e3).trans h8
      simp only [ok_bind, ok_setCnt, ok_pure]
      refine ⟨trivial, (h4.setCnt _).at_of (h5.trans hls) ?_ ?_ h6 h7 hsort hcnt, e4.1, e4.2.2⟩
      · show _ = firstPtr s4.header _
        rw [e4.1]
      · show _ = lastPtr s4.header _
        rw [e4.1]
    have t1 := h2.tr.1
    have hnd := h2.nd
    simp only [T.ids_node, List.nodup_cons, List.mem_append, List.mem_cons] at hnd
    have hl0 : 0 ∉ l.ids := by tauto
    have hr0 : 0 ∉ r.ids := by tauto
    rw [ok_bind]
    unfold sink
    simp only [ok_bind, ok_rd, t1, Option.some.injEq, exists_eq_left']
    have hpp : (l.ptr = 0 ∨ r.ptr = 0) ↔ (l = .nil ∨ r = .nil) := by rw [T.ptr_eq_zero hl0, T.ptr_eq_zero hr0]
    by_cases hlr : l = .nil ∨ r = .nil
    · rw [if_pos (hpp.2 hlr), ok_pure]
      have := fin h2 (Same.refl _) hlr hc hrb h.top rfl
      simpa only [ok_bind] using this
    · rw [if_neg (mt hpp.1 hlr)]
      refine Ok.mono (swap_ok h2 fun e => hlr (.inr e)) ?_
      rintro _ s3 ⟨rs, q, c', k', v', r', e3, e4, h3, e5⟩
      have hq : ∃ n', CRB ((⟨false, q, c, k', v', l⟩ : Frame K V) :: fs) n' ∧ RB r n' ∧
          (r.isRed = true → topBlack ((⟨false, q, c, k', v', l⟩ : Frame K V) :: fs)) := by
        cases hrb with
        | red a b c d =>
          exact ⟨_, .red rfl a c (h.top rfl) hc, b, fun e => by rw [d] at e; simp at e⟩
        | black a b => exact ⟨_, .black rfl a hc, b, fun _ => rfl⟩
      obtain ⟨n1, q1, q2, q3⟩ := hq
      rw [e3] at q2 q3
      obtain ⟨n2, q4, q5, q6⟩ := crb_append q2 q1 q3
      have := fin h3 e5 (.inl rfl) q4 (q5.rename p k v) q6 (by
        rw [pre_append, post_append, pre_of_lft e4, e3, plug_list, pre_of_lft e4]
        simp [pre, post])
      simpa only [ok_bind] using this

/-- Nothing with the key at the end of an empty path. -/
theorem At.absent {m} (h : At s m fs (.nil : T K V)) {k : K} (hb : Between fs k) : ∀ e ∈ m, e.2.1 ≠ k := by
  intro e he
  rw [← h.ls, plug_list, T.list_nil, List.append_nil] at he
  rcases List.mem_append.1 he with he | he
  · exact ne_of_lt (hb.1 e he)
  · exact ne_of_gt (hb.2 e he)

theorem filter_absent {m : List (Nat × K × V)} {k : K} (h : ∀ e ∈ m, e.2.1 ≠ k) :
    m.filter (fun e => decide (e.2.1 ≠ k)) = m :=
  List.filter_eq_self.2 fun e he => by simpa using h e he

theorem filter_split {a b : List (Nat × K × V)} {p : Nat} {k : K} {v : V}
    (h : (a ++ (p, k, v) :: b).Pairwise fun a b => a.2.1 < b.2.1) :
    (a ++ (p, k, v) :: b).filter (fun e => decide (e.2.1 ≠ k)) = a ++ b := by
  simp only [List.pairwise_append, List.pairwise_cons] at h
  rw [List.filter_append, List.filter_cons, filter_absent, filter_absent]
  · simp
  · exact fun e he => ne_of_gt (h.2.1.1 e he)
  · exact fun e he => ne_of_lt (h.2.2 e he (p, k, v) (by simp))

theorem Rep.maintain {m p k v} (h : Rep s m) (hm : (p, k, v) ∈ m) (Q : Unit → St K V → Prop) :
    Ok (maintainRelationship p) s Q ↔ Q () s := by
  obtain ⟨fs, c, l, r, h1⟩ := h.find hm
  exact maintain_noop h1.conf.tr Q

/-- What `remove` does. -/
def RemoveOk (s : St K V) (m : List (Nat × K × V)) (k : K) (b : Bool) (s' : St K V) : Prop :=
  (b = true ↔ ∃ e ∈ m, e.2.1 = k) ∧ Rep s' (m.filter fun e => decide (e.2.1 ≠ k)) ∧ s'.header = s.header ∧
    s'.next = s.next

theorem remove_ok (k : K) : ∀ (fuel : Nat) {s : St K V} {m fs id c l k' v' r},
    At s m fs (.node id c l k' v' r : T K V) → Between fs k → (T.node id c l k' v' r).ids.length ≤ fuel →
    Ok (remove fuel id k) s (RemoveOk s m k) := by
  intro fuel
  induction fuel with
  | zero => intro _ _ _ _ _ _ _ _ _ _ _ h; simp at h
  | succ fuel ih =>
    intro s m fs id c l k' v' r h hb hf
    unfold remove
    rw [ok_bind, ok_rd]
    refine ⟨_, h.conf.tr.1, ?_⟩
    dsimp only
    simp only [T.ids_node, List.length_append, List.length_cons] at hf
    have hm := h.split
    have hnone : (∀ e ∈ m, e.2.1 ≠ k) → RemoveOk s m k false s := by
      intro ha
      refine ⟨?_, ?_, rfl, rfl⟩
      · simp only [Bool.false_eq_true, false_iff]
        rintro ⟨e, he, hk⟩
        exact ha e he hk
      · rw [filter_absent ha]
        exact h.rep
    have after : ∀ b s', k ≠ k' → RemoveOk s m k b s' → Ok (afterRemove id b) s' (RemoveOk s m k) := by
      intro b s' hk hr
      unfold afterRemove
      split
      · rw [ok_bind, hr.2.1.maintain (p := id) (k := k') (v := v'), ok_pure]
        · rename_i e
          rwa [e] at hr
        · rw [hm]
          simp [Ne.symm hk]
      · rw [ok_pure]
        rename_i e
        rwa [Bool.eq_false_iff.2 e] at hr
    by_cases hk : k = k'
    · rw [if_pos hk]
      subst hk
      refine Ok.mono (removeNode_ok h) ?_
      rintro b s' ⟨rfl, h1, h2, h3⟩
      refine ⟨?_, ?_, h2, h3⟩
      · simp only [true_iff]
        exact ⟨(id, k, v'), by rw [hm]; simp, rfl⟩
      · have hs := h.sorted
        rw [hm] at hs
        rw [hm, filter_split hs]
        exact h1
    · rw [if_neg hk]
      by_cases hlt : k < k'
      · rw [if_pos hlt]
        cases l with
        | nil =>
          rw [T.ptr_nil, if_pos rfl, ok_pure]
          exact hnone (h.left.absent (h.between_left hb hlt))
        | node id' c' l' k'' v'' r' =>
          rw [T.ptr_node, if_neg (h.left.conf.ne_zero), ok_bind]
          refine Ok.mono (ih h.left (h.between_left hb hlt) (by omega)) ?_
          intro b s' hr
          exact after b s' hk hr
      · rw [if_neg hlt]
        have hgt : k' < k := lt_of_le_of_ne (not_lt.1 hlt) (Ne.symm hk)
        cases r with
        | nil =>
          rw [T.ptr_nil, if_pos rfl, ok_pure]
          exact hnone (h.right.absent (h.between_right hb hgt))
        | node id' c' l' k'' v'' r' =>
          rw [T.ptr_node, if_neg (h.right.conf.ne_zero), ok_bind]
          refine Ok.mono (ih h.right (h.between_right hb hgt) (by omega)) ?_
          intro b s' hr
          exact after b s' hk hr

/-- `remove` from the root of a map which is not empty. -/
theorem removeRoot_ok {m} (h : Rep s m) (hne : m ≠ []) (k : K) :
    Ok (fuelled fun f => remove f s.root k) s (RemoveOk s m k) := by
  have hr := h.root_iff
  obtain ⟨t, h⟩ := h
  rw [ok_fuelled]
  have hrt := h.conf.rt
  rw [plug_nil] at hrt
  cases t with
  | nil => exact absurd (hr.1 hrt) hne
  | node id c l k' v' r =>
    have hfu := h.conf.fuel
    rw [hrt, T.ptr_node]
    exact remove_ok k s.next h (.nil k) (by omega)

theorem erase_ok {m} (h : Rep s m) (k : K) :
    Ok (erase k) s fun n s' => n = (if ∃ e ∈ m, e.2.1 = k then 1 else 0) ∧
      Rep s' (m.filter fun e => decide (e.2.1 ≠ k)) ∧ s'.header = s.header ∧ s'.next = s.next := by
  unfold erase
  rw [ok_bind, ok_theRoot]
  have hr := h.root_iff
  by_cases e : s.root = 0
  · have := hr.1 e
    subst this
    rw [if_pos e, ok_pure]
    exact ⟨by simp, h, rfl, rfl⟩
  · rw [if_neg e, ok_bind]
    refine Ok.mono (removeRoot_ok h (mt hr.2 e) k) ?_
    rintro b s' ⟨h1, h2⟩
    cases b
    · rw [if_neg (by simp), ok_pure, if_neg (fun e => by simpa using h1.2 e)]
      exact ⟨rfl, h2⟩
    · rw [if_pos rfl, ok_pure, if_pos (h1.1 rfl)]
      exact ⟨rfl, h2⟩

theorem Rep.clear {m} (h : Rep s m) :
    Ok (clear : M K V Unit) s fun _ s' => Rep s' [] ∧ s'.header = s.header ∧ s'.next = s.next := by
  obtain ⟨t, h⟩ := h
  refine Ok.mono (clear_ok h.conf) ?_
  rintro _ s' ⟨h1, h2, h3, h4⟩
  exact ⟨h1.at_of rfl (by simp [h2]) (by simp [h2, lastPtr]) .nil rfl .nil h4, h2, h3⟩

/-- The destructor gives everything back. -/
theorem destruct_ok {m} (h : Rep s m) :
    Ok (destruct : M K V Unit) s fun _ s' => ∀ x, s'.heap x = none := by
  unfold destruct
  rw [ok_bind]
  refine Ok.mono h.clear ?_
  rintro _ s1 ⟨⟨t, h1⟩, h2, h3⟩
  have hlv := h1.conf.lv
  have ht : t = .nil := by
    have := h1.ls
    cases t <;> simp_all
  subst ht
  obtain ⟨hk, hv, hh⟩ := h1.conf.hd
  simp only [ok_bind, ok_theHeader, ok_wr, hh, Option.some.injEq, exists_eq_left', ok_free, set_heap, set_header, if_true]
  intro x
  by_cases e : x = s1.header
  · simp [e]
  · have := hlv x
    simp only [T.ids_nil, idsC_nil, List.append_nil, List.mem_singleton, e, iff_false, ne_eq, not_not] at this
    simp [e, this]

end Order

end Verif.RBTree
