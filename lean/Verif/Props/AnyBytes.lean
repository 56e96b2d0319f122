import Verif.Props.Json

set_option autoImplicit false
set_option linter.unusedSectionVars false

/-!
# C73: whatever bytes arrive
-/

namespace Hotmeal.Postcard

/-- **C73**: whatever bytes a client gets, written by the server or not, it either loads the page anew or keeps a page
that is a tree, in which everything outside the body is as it was. -/
theorem C73_any_bytes (dom : WebDom) (fresh p : Page) (hE : p.arena.WF) (hb : p.body < p.arena.next) (b : Bytes) :
    handleBytes dom fresh p b = fresh ∨
    ((handleBytes dom fresh p b).body = p.body ∧ (handleBytes dom fresh p b).arena.WF ∧
      p.arena.next ≤ (handleBytes dom fresh p b).arena.next ∧
      ∀ n, n < p.arena.next → ¬ p.arena.Anc p.body n →
        (handleBytes dom fresh p b).arena.parent n = p.arena.parent n ∧
        (handleBytes dom fresh p b).arena.data n = p.arena.data n ∧
        (p.arena.parent p.body ≠ some n → (handleBytes dom fresh p b).arena.children n = p.arena.children n)) := by
  unfold handleBytes
  split
  · exact .inr ⟨rfl, hE, Nat.le_refl _, fun _ _ _ => ⟨rfl, rfl, fun _ => rfl⟩⟩
  · exact .inl rfl
  · exact .inl rfl
  · split
    · exact .inr ⟨rfl, hE, Nat.le_refl _, fun _ _ _ => ⟨rfl, rfl, fun _ => rfl⟩⟩
    · rename_i ps _
      have h := Safe.applyKeep (b := p.body) dom hE ps ⟨hE, .refl hE⟩ ⟨hb, fun h => h.2 .refl⟩
        (s := fun _ => none) (fun k n hk => by cases hk)
      refine .inr ⟨rfl, h.wf, h.fenced.le, fun n hn hb => ⟨h.fenced.parent n ⟨hn, hb⟩, h.fenced.data n ⟨hn, hb⟩,
        h.fenced.kids n ⟨hn, hb⟩⟩⟩

/-- The same node, its parent and its data in both arenas, for all nodes outside of `b`. -/
def Untouched (E E' : Arena NodeData) (b : Nat) : Prop :=
  ∀ n, n < E.next → ¬ E.Anc b n → E'.parent n = E.parent n ∧ E'.data n = E.data n

theorem not_anc_of_untouched {E E' : Arena NodeData} {b : Nat} (hE : E.WF) (h : Untouched E E' b) {n : Nat}
    (ha : E'.Anc b n) : n < E.next → E.Anc b n := by
  induction ha with
  | refl => exact fun _ => .refl
  | @step n p hp _ ih =>
    intro hn
    apply Classical.byContradiction
    intro hc
    have hp' := (h n hn hc).1
    rw [hp] at hp'
    exact hc (.step hp'.symm (ih (hE.lt_of_parent n p hp'.symm).2))

/-- **C73**, for any number of messages of any bytes, between which the server may be asked for any well-formed pages:
the page stays a tree, and as long as no message says to reload, everything outside the body is as it was at the
beginning. -/
theorem C73_any_messages (dom : WebDom) : ∀ (msgs : List (Page × Bytes)) (p : Page), p.arena.WF → p.body < p.arena.next →
    (∀ m ∈ msgs, m.1.arena.WF ∧ m.1.body < m.1.arena.next) →
    (msgs.foldl (fun p m => handleBytes dom m.1 p m.2) p).arena.WF ∧
    ((∀ m ∈ msgs, readEvent m.2 ≠ some .reload ∧ ∀ r, readEvent m.2 ≠ some (.headChanged r)) →
      (msgs.foldl (fun p m => handleBytes dom m.1 p m.2) p).body = p.body ∧
      Untouched p.arena (msgs.foldl (fun p m => handleBytes dom m.1 p m.2) p).arena p.body) := by
  intro msgs
  induction msgs with
  | nil => exact fun p hE _ _ => ⟨hE, fun _ => ⟨rfl, fun _ _ _ => ⟨rfl, rfl⟩⟩⟩
  | cons m msgs ih =>
    intro p hE hb hm
    rw [List.foldl_cons]
    have hstep := C73_any_bytes dom m.1 p hE hb m.2
    have hfresh := hm m List.mem_cons_self
    have hwf : (handleBytes dom m.1 p m.2).arena.WF ∧
        (handleBytes dom m.1 p m.2).body < (handleBytes dom m.1 p m.2).arena.next := by
      rcases hstep with e | ⟨e1, e2, e3, _⟩
      · rw [e]; exact hfresh
      · rw [e1]; exact ⟨e2, by omega⟩
    obtain ⟨h1, h2⟩ := ih _ hwf.1 hwf.2 fun m' hm' => hm m' (List.mem_cons_of_mem _ hm')
    refine ⟨h1, fun hr => ?_⟩
    obtain ⟨h3, h4⟩ := h2 fun m' hm' => hr m' (List.mem_cons_of_mem _ hm')
    have hkeep : (handleBytes dom m.1 p m.2).body = p.body ∧ p.arena.next ≤ (handleBytes dom m.1 p m.2).arena.next ∧
        Untouched p.arena (handleBytes dom m.1 p m.2).arena p.body := by
      obtain ⟨r1, r2⟩ := hr m List.mem_cons_self
      unfold handleBytes
      split
      · exact ⟨rfl, Nat.le_refl _, fun _ _ _ => ⟨rfl, rfl⟩⟩
      · rename_i e; exact absurd e r1
      · rename_i e; exact absurd e (r2 _)
      · split
        · exact ⟨rfl, Nat.le_refl _, fun _ _ _ => ⟨rfl, rfl⟩⟩
        · rename_i ps _
          have h := Safe.applyKeep (b := p.body) dom hE ps ⟨hE, .refl hE⟩ ⟨hb, fun h => h.2 .refl⟩
            (s := fun _ => none) (fun k n hk => by cases hk)
          exact ⟨rfl, h.fenced.le, fun n hn hb => ⟨h.fenced.parent n ⟨hn, hb⟩, h.fenced.data n ⟨hn, hb⟩⟩⟩
    obtain ⟨k1, k2, k3⟩ := hkeep
    refine ⟨h3.trans k1, fun n hn ha => ?_⟩
    have ha' : ¬ (handleBytes dom m.1 p m.2).arena.Anc (handleBytes dom m.1 p m.2).body n := by
      rw [k1]
      exact fun hc => ha (not_anc_of_untouched hE k3 hc hn)
    obtain ⟨q1, q2⟩ := h4 n (by omega) ha'
    obtain ⟨q3, q4⟩ := k3 n hn ha
    exact ⟨q1.trans q3, q2.trans q4⟩

/-- **C53**, for text: whatever text `apply_patches_json` accepts, the page stays a tree, and everything outside the
body is as it was. -/
theorem C53_any_json (dom : WebDom) {E E' : Arena NodeData} (hE : E.WF) {eb : Nat} (heb : eb < E.next) {s : Str}
    {count : Nat} (e : Json.applyJson dom eb E s = some (count, E')) :
    E'.WF ∧ ∀ n, n < E.next → ¬ E.Anc eb n → E'.parent n = E.parent n ∧ E'.data n = E.data n ∧
      (E.parent eb ≠ some n → E'.children n = E.children n) := by
  unfold Json.applyJson at e
  split at e
  · cases e
  · split at e
    · rename_i h
      cases e
      exact C53_page_stays_a_tree dom hE heb h
    · cases e

/-! ### Cases that meet the hypotheses -/

/-- A page, and four messages: one that cannot be read, one whose patches cannot be read, one with a patch that fails,
and one with a patch that removes the paragraph. None is a reload. -/
example : (Document.ofForest [ex "p" [] []]).arena.WF ∧
    (let p : Page := ⟨(Document.ofForest [ex "p" [] []]).arena, 2⟩
     let msgs : List (Page × Bytes) := [(p, [7]), (p, [1, 0, 2, 9, 9]), (p, [1, 0, 5, 1, 3, 2, 0, 9]),
       (p, [1, 0, 5, 1, 3, 2, 0, 0])]
     decide ((∀ m ∈ msgs, readEvent m.2 ≠ some .reload) ∧
       ((msgs.foldl (fun p m => handleBytes WebDom.lenient m.1 p m.2) p).arena.tree 0).ser false =
         "<html><head></head><body></body></html>".toList ∧
       (((msgs.take 3).foldl (fun p m => handleBytes WebDom.lenient m.1 p m.2) p).arena.tree 0).ser false =
         "<html><head></head><body><p></p></body></html>".toList)) = true :=
  ⟨(ofForest_spec _ (by decide +kernel)).1.arena.wf, by decide +kernel⟩

/-- A text that is accepted. -/
example : (match Json.applyJson WebDom.lenient 2 (Document.ofForest [ex "p" [] []]).arena
      "[{\"Remove\":{\"node\":[0,0]}}]".toList with
    | some (1, E') => decide ((E'.tree 2).inner = [])
    | _ => false) = true := by
  decide +kernel

end Hotmeal.Postcard
