import Verif.Lemmas.Grove

set_option autoImplicit false
set_option linter.unusedSectionVars false

/-!
# The operations of the appliers on the trees of a store
-/

namespace Hotmeal

namespace Html

theorem get?_append (t : Html) (q r : List Nat) :
    t.get? (q ++ r) = (t.get? q).bind fun u => u.get? r := by
  induction q generalizing t with
  | nil => cases r <;> simp [get?]
  | cons i is ih =>
    cases t with
    | element tag attrs cs =>
      simp only [List.cons_append, get?]
      cases cs[i]? with
      | none => rfl
      | some c => exact ih c
    | _ => simp [get?]

/-- The parent of the tree at a path. -/
theorem get?_concat {t u : Html} {q : List Nat} {i : Nat} (h : t.get? (q ++ [i]) = some u) :
    ∃ tag attrs cs, t.get? q = some (.element tag attrs cs) ∧ cs[i]? = some u := by
  rw [get?_append] at h
  cases e : t.get? q with
  | none => rw [e] at h; cases h
  | some v =>
    rw [e] at h
    cases v with
    | element tag attrs cs =>
      refine ⟨tag, attrs, cs, rfl, ?_⟩
      simp only [Option.bind_some, get?] at h
      cases e2 : cs[i]? with
      | none => rw [e2] at h; cases h
      | some c => rw [e2] at h; exact h
    | _ => simp [get?] at h

theorem put_concat {t w : Html} {q : List Nat} {i : Nat} {tag : Str} {attrs : Attrs} {cs : List Html}
    (h : t.get? q = some (.element tag attrs cs)) :
    put w (q ++ [i]) t = put (.element tag attrs (cs.modify i fun _ => w)) q t := by
  induction q generalizing t with
  | nil =>
    cases h
    simp only [List.nil_append, put]
  | cons j js ih =>
    cases t with
    | element tg at_ ds =>
      simp only [get?] at h
      simp only [List.cons_append, put]
      cases e : ds[j]? with
      | none => rw [e] at h; cases h
      | some d =>
        rw [e] at h
        congr 1
        apply List.ext_getElem?
        intro k
        rw [List.getElem?_modify, List.getElem?_modify]
        by_cases hk : j = k
        · subst hk
          rw [e]
          simp only [Functor.map, Option.map_some, if_true]
          rw [ih h]
        · simp only [if_neg hk]
    | _ => simp [get?] at h

end Html

namespace Store

/-- The parent of the tree at a path. -/
theorem find_concat {σ : Store} {q : Path} {i : Nat} {u : Html} (hq : q ≠ [])
    (h : σ.find (q ++ [i]) = some u) :
    ∃ tag attrs cs, σ.find q = some (.element tag attrs cs) ∧ cs[i]? = some u ∧
      ∀ w, σ.write (q ++ [i]) w = σ.write q (.element tag attrs (cs.modify i fun _ => w)) := by
  cases q with
  | nil => exact absurd rfl hq
  | cons s q =>
    simp only [List.cons_append, find] at h ⊢
    cases e : σ s with
    | none => rw [e] at h; cases h
    | some t =>
      rw [e] at h
      obtain ⟨tag, attrs, cs, h1, h2⟩ := Html.get?_concat h
      refine ⟨tag, attrs, cs, h1, h2, fun w => ?_⟩
      simp only [write, e, Option.map_some, Html.put_concat h1]

end Store

namespace Rep

variable {A0 A A' : Arena NodeData} {b : Nat} {F : Nat → Prop} {slots slots' : Slots}
  {σ σ' : Store} {hand : Option (Nat × Html)}

/-- The tree of a node after a change of its children only. -/
theorem tree_kids {p : Nat} {tag : Str} {attrs : Attrs} {cs : List Html} (hA : A.WF)
    (hc : Changed A A' p) (hp : A.tree p = .element tag attrs cs) (hd : A'.data p = A.data p) :
    A'.tree p = .element tag attrs ((A'.children p).map A'.tree) ∧ cs = (A.children p).map A.tree := by
  rw [hA.tree_eq] at hp
  rw [hc.wf.tree_eq, hd]
  cases hk : (A.data p).kind with
  | element tag' attrs' =>
    rw [hk] at hp
    simp only [Html.ofKind, Html.element.injEq] at hp ⊢
    obtain ⟨rfl, rfl, rfl⟩ := hp
    exact ⟨⟨rfl, rfl, rfl⟩, rfl⟩
  | _ => rw [hk] at hp; simp [Html.ofKind] at hp

theorem child_not_anc (hA : A.WF) {p c : Nat} (hc : A.parent c = some p) : ¬ A.Anc c p := fun ha =>
  hA.self_parent_ne hc (hA.anc_antisymm (.step hc .refl) ha)

theorem tree_child {p c : Nat} (hA : A.WF) (hc : Changed A A' p) (hm : c ∈ A.children p) :
    A'.tree c = A.tree c := by
  have hp := (hA.mem_iff _ _).1 hm
  exact hc.tree_other hA (hA.lt_of_parent _ _ hp).1 (child_not_anc hA hp)

theorem tree_empty (hA : A.WF) {e : Nat} (hd : A.data e = Document.emptyText) :
    A.tree e = .text [] := by
  rw [hA.tree_eq, hd]; rfl

/-- `Remove`, and the first half of `Move`: an empty text takes the place of a node. -/
theorem replaced (hF : Fence A0 b F) (h : Rep A0 b F A slots σ none) {q : Path} {i : Nat} {u : Html}
    (hq : q ≠ []) (hf : σ.find (q ++ [i]) = some u) {n p : Nat}
    (hn : navigate A slots (q ++ [i]) = .ok n) (hpar : A.parent n = some p)
    (hr : A.Replaced A' n p Document.emptyText) :
    Rep A0 b F A' slots (σ.write (q ++ [i]) (.text [])) (some (n, u)) := by
  have hA := h.grove.wf
  obtain ⟨s1, q1, t1, r1, n1, e1, hs1, hr1, ht1, hg1, hl1, hn1, htn, ha1, hlt1⟩ := h.find hF hf
  rw [hn] at hn1; cases hn1
  obtain ⟨tag, attrs, cs, h1, h2, h3⟩ := Store.find_concat hq hf
  obtain ⟨s, q', t, r, p', e2, hs, hrs, ht, hg, hl, hnp, htp, ha, hlt⟩ := h.find hF h1
  rw [navigate_append hnp] at hn
  simp only [navLoop] at hn
  cases ec : (A.children p')[i]? with
  | none => rw [ec] at hn; cases hn
  | some c =>
    rw [ec] at hn
    cases hn
    have hmem := List.mem_of_getElem? ec
    have hpp : p' = p := by
      have := (hA.mem_iff _ _).1 hmem
      rw [hpar] at this; exact (Option.some.inj this).symm
    subst hpp
    have hplt := (hA.lt_of_parent _ _ hpar)
    have hc : Changed A A' p' := by
     refine ⟨hr.wf, by rw [hr.next]; omega,
      fun m _ hm => by rw [hr.children, if_neg hm], ?_, fun m hm _ => by rw [hr.data, if_neg (by omega)]⟩
     intro m q h1 h2
     rw [hr.children, if_neg (by omega), hA.children_ge h1] at h2; cases h2
    have hkids := hr.children p'
    rw [if_pos rfl] at hkids
    obtain ⟨k1, k2⟩ := tree_kids hA hc htp (by rw [hr.data, if_neg (by omega)])
    have hu' : A'.tree p' = .element tag attrs (cs.modify i fun _ => .text []) := by
      rw [k1, hkids]
      congr 1
      apply List.ext_getElem?
      intro j
      rw [k2, List.getElem?_modify, List.getElem?_map, List.getElem?_map, Arena.swapIn_getElem?]
      cases ej : (A.children p')[j]? with
      | none => rfl
      | some d =>
        simp only [Option.map_some, Functor.map]
        by_cases hj : i = j
        · subst hj
          rw [ec] at ej; cases ej
          rw [if_pos rfl, if_pos rfl]
          rw [tree_empty hr.wf]
          rw [hr.data, if_pos rfl]
        · have hne : d ≠ n := by
            rintro rfl
            obtain ⟨g1, e1⟩ := List.getElem?_eq_some_iff.1 ec
            obtain ⟨g2, e2⟩ := List.getElem?_eq_some_iff.1 ej
            exact hj ((List.getElem_inj (hA.nodup p')).1 (e1.trans e2.symm))
          rw [if_neg hne, if_neg hj, tree_child hA hc (List.mem_of_getElem? ej)]
    have hlive : Live slots σ none r := live_slot hs hrs
    obtain ⟨hnb, hnl⟩ := h.grove.child_ne hF hlive ha hpar
    have := h.write hF h1 hnp hc hu' (by
      intro m hm
      rw [hkids] at hm
      rcases (Arena.mem_swapIn hmem).1 hm with rfl | ⟨h5, _⟩
      · exact .inr (.inr (Nat.le_refl _))
      · exact .inl h5)
    rw [h3]
    refine this.grab (by rw [hr.next]; omega) (by rw [hr.parent, if_pos rfl]) ?_ ?_ ?_
    · exact h.grove.not_out hF (live_slot hs1 hr1) ha1
    · rw [tree_child hA hc hmem, htn]
    · intro s' hs' e
      refine hnl (.inl ⟨s', ?_, e⟩)
      rw [e2] at hs'
      simp only [Store.write, Store.slot] at hs'
      by_cases es : s' = s
      · rw [es, hs]; simp
      · rw [if_neg es] at hs'; exact hs'

/-- What `insert` does when the tree at the parent path is known. -/
theorem insert_eq {shifts : Bool} {q : Path} {pos : Nat} {x : Html} {slot : Option Nat} {σ' : Store}
    (h : σ.insert shifts (q ++ [pos]) x slot = some σ') : slot ≠ some 0 ∧
    ∃ tag attrs cs, σ.find q = some (.element tag attrs cs) ∧
      ((∃ k occ, slot = some k ∧ cs[pos]? = some occ ∧
        σ' = (σ.write q (.element tag attrs (cs.set pos x))).slot k (some occ)) ∨
      ((∃ occ, cs[pos]? = some occ) ∧ slot = none ∧ shifts = false ∧
        σ' = σ.write q (.element tag attrs (cs.set pos x))) ∨
      ((∃ occ, cs[pos]? = some occ) ∧ slot = none ∧ shifts = true ∧
        σ' = σ.write q (.element tag attrs (cs.take pos ++ x :: cs.drop pos))) ∨
      (cs[pos]? = none ∧ σ' = σ.write q (.element tag attrs
        (cs ++ List.replicate (pos - cs.length) (.text []) ++ [x])))) := by
  unfold Store.insert at h
  split at h
  · cases h
  · next hk =>
    refine ⟨hk, ?_⟩
    rw [List.getLast?_concat, List.dropLast_concat] at h
    cases e : σ.find q with
    | none => rw [e] at h; cases h
    | some v =>
      rw [e] at h
      cases v with
      | element tag attrs cs =>
        refine ⟨tag, attrs, cs, rfl, ?_⟩
        simp only [Store.place] at h
        cases eo : cs[pos]? with
        | none =>
          rw [eo] at h
          cases slot <;> simp only [Option.some.injEq] at h <;> subst h <;>
            exact .inr (.inr (.inr ⟨rfl, rfl⟩))
        | some occ =>
          rw [eo] at h
          cases slot with
          | none =>
            cases shifts <;> simp at h <;> subst h
            · exact .inr (.inl ⟨⟨occ, rfl⟩, rfl, rfl, rfl⟩)
            · exact .inr (.inr (.inl ⟨⟨occ, rfl⟩, rfl, rfl, rfl⟩))
          | some k =>
            simp at h
            subst h
            exact .inl ⟨k, occ, rfl, rfl, rfl⟩
      | _ => cases h

/-- The node in hand takes the place of a node. -/
theorem placed_set (hF : Fence A0 b F) {x : Nat} {t : Html} (h : Rep A0 b F A slots σ (some (x, t)))
    {q : Path} {tag : Str} {attrs : Attrs} {cs : List Html}
    (hf : σ.find q = some (.element tag attrs cs)) {p pos occ : Nat}
    (hn : navigate A slots q = .ok p) (hd : DPut A A' x p pos occ) :
    Rep A0 b F A' slots (σ.write q (.element tag attrs (cs.set pos t))) none ∧
    ∃ to, cs[pos]? = some to ∧
      Rep A0 b F A' slots (σ.write q (.element tag attrs (cs.set pos t))) (some (occ, to)) := by
  have hA := h.grove.wf
  obtain ⟨s, q', t', r, p', e2, hs, hrs, ht, hg, hl, hnp, htp, ha, hlt⟩ := h.find hF hf
  rw [hn] at hnp; cases hnp
  have hlive : Live slots σ (some (x, t)) r := live_slot hs hrs
  have hxl : Live slots σ (some (x, t)) x := .inr ⟨t, rfl⟩
  have hxr : x ≠ r := by
    rintro rfl
    exact (h.held x t rfl).2 s (by rw [hs]; simp) hrs
  have hxp : ¬ A.Anc x p := fun hx => hxr (h.grove.unique hF hxl hlive hx ha)
  have hc : Changed A A' p := ⟨hd.wf, by rw [hd.next]; omega,
    fun m _ hm => by rw [hd.children, if_neg hm], fun m q h1 h2 => (by
      rw [hd.children, if_neg (by omega), hA.children_ge h1] at h2; (cases h2)), fun m _ _ => hd.data m⟩
  obtain ⟨k1, k2⟩ := tree_kids hA hc htp (hd.data p)
  have hkids := hd.children p
  rw [if_pos rfl] at hkids
  have hmem := List.mem_of_getElem? hd.at_
  have hop := (hA.mem_iff _ _).1 hmem
  have hu' : A'.tree p = .element tag attrs (cs.set pos t) := by
    rw [k1, hkids]
    congr 1
    apply List.ext_getElem?
    intro j
    rw [k2, List.getElem?_map, List.getElem?_set, List.getElem?_set, List.length_map]
    split
    · split
      · simp only [Option.map_some]
        rw [hc.tree_other hA (h.grove.lt x hxl) hxp, (h.held x t rfl).1]
      · rfl
    · rw [List.getElem?_map]
      cases ej : (A.children p)[j]? with
      | none => rfl
      | some d =>
        simp only [Option.map_some]
        rw [tree_child hA hc (List.mem_of_getElem? ej)]
  have hw := h.write hF hf hn hc hu' (by
    intro m hm
    rw [hkids] at hm
    rcases List.mem_or_eq_of_mem_set hm with h5 | rfl
    · exact .inl h5
    · exact .inr (.inl ⟨t, rfl⟩))
  refine ⟨hw, A.tree occ, ?_, ?_⟩
  · rw [k2, List.getElem?_map, hd.at_]; rfl
  · obtain ⟨hob, hol⟩ := h.grove.child_ne hF hlive ha hop
    have hox : occ ≠ x := by
      rintro rfl; exact hol hxl
    refine hw.grab ?_ ?_ ?_ (tree_child hA hc hmem) ?_
    · have := (hA.lt_of_parent _ _ hop).1
      rw [hd.next]; exact this
    · cases e : A'.parent occ with
      | none => rfl
      | some a =>
        exfalso
        rw [← hd.wf.mem_iff, hd.children] at e
        by_cases hap : a = p
        · rw [if_pos hap] at e
          obtain ⟨j, hj, ej⟩ := List.getElem_of_mem e
          rw [List.getElem_set] at ej
          split at ej
          · exact hox ej.symm
          · next hne =>
            obtain ⟨g1, e1⟩ := List.getElem?_eq_some_iff.1 hd.at_
            rw [List.length_set] at hj
            exact hne ((List.getElem_inj (hA.nodup p)).1 (e1.trans ej.symm))
        · rw [if_neg hap, hA.mem_iff, hop] at e
          exact hap (Option.some.inj e).symm
    · exact h.grove.not_out hF hlive (.step hop ha)
    · intro s' hs' e
      refine hol (.inl ⟨s', ?_, e⟩)
      rw [e2] at hs'
      simp only [Store.write, Store.slot] at hs'
      by_cases es : s' = s
      · rw [es, hs]; simp
      · rw [if_neg es] at hs'; exact hs'

/-- The node in hand is put between the others, after empty texts that fill a gap. -/
theorem placed_new (hF : Fence A0 b F) {x : Nat} {t : Html} (h : Rep A0 b F A slots σ (some (x, t)))
    {q : Path} {tag : Str} {attrs : Attrs} {cs : List Html}
    (hf : σ.find q = some (.element tag attrs cs)) {p pos : Nat}
    (hn : navigate A slots q = .ok p) (hwf : A'.WF)
    (hnext : A'.next = A.next + (pos - (A.children p).length))
    (hch : ∀ m, m ≠ p → A'.children m = A.children m)
    (hkids : A'.children p = (A.children p).take pos ++
      List.range' A.next (pos - (A.children p).length) ++ x :: (A.children p).drop pos)
    (hd : ∀ m, A'.data m = if A.next ≤ m ∧ m < A'.next then Document.emptyText else A.data m) :
    Rep A0 b F A' slots (σ.write q (.element tag attrs
      (cs.take pos ++ List.replicate (pos - cs.length) (.text []) ++ t :: cs.drop pos))) none := by
  have hA := h.grove.wf
  obtain ⟨s, q', t', r, p', e2, hs, hrs, ht, hg, hl, hnp, htp, ha, hlt⟩ := h.find hF hf
  rw [hn] at hnp; cases hnp
  have hlive : Live slots σ (some (x, t)) r := live_slot hs hrs
  have hxl : Live slots σ (some (x, t)) x := .inr ⟨t, rfl⟩
  have hxr : x ≠ r := by
    rintro rfl
    exact (h.held x t rfl).2 s (by rw [hs]; simp) hrs
  have hxp : ¬ A.Anc x p := fun hx => hxr (h.grove.unique hF hxl hlive hx ha)
  have hc : Changed A A' p := ⟨hwf, by rw [hnext]; omega, fun m _ hm => hch m hm, fun m q h1 h2 => (by
      rw [hch q (by omega), hA.children_ge h1] at h2; cases h2),
    fun m hm _ => by rw [hd, if_neg (by omega)]⟩
  obtain ⟨k1, k2⟩ := tree_kids hA hc htp (by rw [hd, if_neg (by omega)])
  have hlen : cs.length = (A.children p).length := by rw [k2, List.length_map]
  have old : ∀ l : List Nat, (∀ m ∈ l, m ∈ A.children p) → l.map A'.tree = l.map A.tree :=
    fun l hl => List.map_congr_left fun m hm => tree_child hA hc (hl m hm)
  have hu' : A'.tree p = .element tag attrs
      (cs.take pos ++ List.replicate (pos - cs.length) (.text []) ++ t :: cs.drop pos) := by
    rw [k1, hkids, hlen, k2]
    simp only [List.map_append, List.map_cons]
    rw [old _ fun m hm => List.mem_of_mem_take hm, old _ fun m hm => List.mem_of_mem_drop hm,
      hc.tree_other hA (h.grove.lt x hxl) hxp, (h.held x t rfl).1, List.map_take, List.map_drop]
    congr 4
    rw [List.eq_replicate_iff]
    refine ⟨by simp, fun y hy => ?_⟩
    obtain ⟨m, hm, rfl⟩ := List.mem_map.1 hy
    rw [List.mem_range'_1] at hm
    exact tree_empty hwf (by rw [hd, if_pos (by omega)])
  refine h.write hF hf hn hc hu' ?_
  intro m hm
  rw [hkids] at hm
  simp only [List.mem_append, List.mem_cons, List.mem_range'_1] at hm
  rcases hm with (h1 | h1) | h1 | h1
  · exact .inl (List.mem_of_mem_take h1)
  · exact .inr (.inr h1.1)
  · subst h1; exact .inr (.inl ⟨t, rfl⟩)
  · exact .inl (List.mem_of_mem_drop h1)

end Rep
end Hotmeal
