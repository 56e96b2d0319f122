import Verif.Lemmas.Agree

set_option autoImplicit false
set_option linter.unusedSectionVars false

/-!
# One patch, applied natively and in the browser
-/

namespace Hotmeal

mutual
/-- All attribute names in the content satisfy `N`, and each occurs once per element. -/
def InsertContent.Fine (N : QualName → Prop) : InsertContent → Prop
  | .element _ attrs cs => (∀ kv ∈ attrs, N kv.1) ∧ attrs.keys.Nodup ∧ FineL N cs
  | .text _ => True
  | .comment _ => True
/-- The same for a list. -/
def InsertContent.FineL (N : QualName → Prop) : List InsertContent → Prop
  | [] => True
  | c :: cs => c.Fine N ∧ FineL N cs
end

/-- All attribute names in the patch satisfy `N`. -/
def Patch.Names (N : QualName → Prop) : Patch → Prop
  | .insertElement _ _ attrs cs _ => (∀ kv ∈ attrs, N kv.1) ∧ InsertContent.FineL N cs
  | .updateProps _ changes => Wasm.ChangeNames N changes
  | _ => True

theorem forgetStep_removeFree (parse : Str → Document) {D : Arena NodeData} {slots : Slots}
    {k n : Nat} (hw : D.WF) (hk : k ≠ 0) (hs : slots k = some n) (hn : n < D.next)
    (hp : D.parent n = none) : forgetStep parse D slots (.remove [k]) =
      .ok ((D.newNode Document.emptyText).1, Arena.upd slots k none) := by
  simp only [forgetStep, applyPatch, Hotmeal.navigate, hs, navLoop, bind, Except.bind,
    replaceByEmpty_free hw hn hp, forget, if_neg hk]

/-- No slot is cleared after an insert patch. -/
theorem forgetStep_insertPatch (parse : Str → Document) (D : Arena NodeData) (s : Slots) (at_ : Path)
    (nk : NodeKind) (cs : List InsertContent) (slot : Option Nat) :
    forgetStep parse D s (insertPatch at_ nk cs slot) =
      applyPatch parse D s (insertPatch at_ nk cs slot) := by
  have hf : ∀ s', forget s (insertPatch at_ nk cs slot) s' = s' := by
    intro s'; cases nk <;> rfl
  unfold forgetStep
  split
  · next e => rw [e, hf]
  · next e => rw [e]

namespace Wasm

/-- How the browser client creates the node of an insert patch. -/
def nodeKind : NodeKind → NodeKind
  | .element tag attrs => .element tag (setAttrs attrs)
  | k => k

theorem insertParent_eq {root : Nat} {E : Arena NodeData} {t : Slots} {q : Path} {p pos : Nat}
    (hq : findNode root E t q = .ok p) (he : (E.data p).kind.IsElement) :
    insertParent root E t (q ++ [pos]) = .ok (p, pos) := by
  have hne : q ≠ [] := by rintro rfl; simp [findNode, navigate] at hq
  have hl : ¬ (q ++ [pos]).length < 2 := by
    cases q with
    | nil => exact absurd rfl hne
    | cons a as => simp
  obtain ⟨tag, attrs, hk⟩ := he
  unfold insertParent
  rw [if_neg hl]
  simp only [List.getLast?_append, List.getLast?_singleton, Option.some_or, List.dropLast_concat, hq,
    bind, Except.bind, asElement, hk]

end Wasm

namespace Agree

variable {N : QualName → Prop} {root eb : Nat} {φ : Nat → Nat} {L J : Nat → Prop}
  {D D' E E' : Arena NodeData} {s s' t : Slots}

theorem nodeKind_sim (hN : PlainNames N) {nk : NodeKind} (hc : nk.Clean)
    (hn : ∀ tag attrs, nk = .element tag attrs → ∀ kv ∈ attrs, N kv.1) :
    DataSim N ⟨nk, .html⟩ ⟨Wasm.nodeKind nk, .html⟩ := by
  cases nk with
  | document => rfl
  | element tag attrs =>
    exact ⟨_, rfl, Wasm.setAttrs_written hN (hn tag attrs rfl) hc, hn tag attrs rfl, hc⟩
  | text s => rfl
  | comment s => rfl

/-- A free node becomes the last child of `p` on both sides. -/
theorem append (h : Agree N root eb φ L D s E t) {x p : Nat} (hx : L x) (hxp : D.parent x = none)
    (hp : L p) (hanc : ¬ D.Anc x p) :
    D.append p x = .ok (D.appendRaw p x) ∧
    Wasm.appendChild E (φ p) (φ x) = .ok (E.appendRaw (φ p) (φ x)) ∧
    Agree N root eb φ L (D.appendRaw p x) s (E.appendRaw (φ p) (φ x)) t := by
  have hance : ¬ E.Anc (φ x) (φ p) := fun h' => hanc (h.anc hx hp h')
  have hxe := h.free x hx hxp
  refine ⟨h.dwf.append_ok hanc, ?_, ?_⟩
  · unfold Wasm.appendChild
    rw [if_neg (by rw [h.ewf.isAncestorOrSelf_iff]; exact hance)]
  · have er := Arena.appendRaw_of_parent_none (p := p) hxp
    have ere := Arena.appendRaw_of_parent_none (p := φ p) hxe
    have hch : ∀ i, (D.appendRaw p x).children i =
        if i = p then D.children p ++ [x] else D.children i := by
      intro i; rw [er]; show Arena.upd D.children p _ i = _; rw [Arena.upd_apply]
    have hche : ∀ i, (E.appendRaw (φ p) (φ x)).children i =
        if i = φ p then E.children (φ p) ++ [φ x] else E.children i := by
      intro i; rw [ere]; show Arena.upd E.children (φ p) _ i = _; rw [Arena.upd_apply]
    have := h.change (D' := D.appendRaw p x) (E' := E.appendRaw (φ p) (φ x)) hp 0
      (h.dwf.appendRaw (h.lt p hp) (h.lt x hx) hanc)
      (h.ewf.appendRaw (h.elt p hp) (h.elt x hx) hance)
      (by rw [er]; rfl) (by rw [ere]; rfl)
      (fun m hm => by rw [hch, if_neg hm]) (fun m hm => by rw [hche, if_neg hm])
      (by rw [hch, if_pos rfl, hche, if_pos rfl, ext_zero, h.kids p hp]; simp)
      (by
        intro m hm
        rw [extL_zero]
        rw [hch, if_pos rfl] at hm
        rcases List.mem_append.1 hm with hm | hm
        · exact h.down p m hp hm
        · rw [List.mem_singleton.1 hm]; exact hx)
      (fun m h1 h2 => by omega) (fun m _ => by rw [er]) (fun m _ => by rw [ere])
    rwa [ext_zero, extL_zero] at this

mutual
/-- Content is created on both sides. -/
theorem create (hN : PlainNames N) : ∀ (c : InsertContent) {φ : Nat → Nat} {L : Nat → Prop}
    {D E : Arena NodeData}, Agree N root eb φ L D s E t → c.Fine N →
    ∃ D' m φ' L' E', createInsertContent D c = .ok (D', m) ∧
      Wasm.createInsertContent E c = .ok (E', φ' m) ∧ Agree N root eb φ' L' D' s E' t ∧ L' m ∧
      ∀ n, L n → L' n ∧ φ' n = φ n
  | .element tag attrs cs, φ, L, D, E, h, hc => by
    have hsim : DataSim N ⟨.element tag attrs, .html⟩ ⟨.element tag (Wasm.setAttrs attrs), .html⟩ :=
      ⟨_, rfl, Wasm.setAttrs_written hN hc.1 hc.2.1, hc.1, hc.2.1⟩
    have h1 := h.newBoth hsim
    obtain ⟨D', φ', L', E', e1, e2, hA, hext⟩ := appendAll hN cs h1 hc.2.2 (n := D.next)
      (.inr (by omega))
    obtain ⟨hm, hφ⟩ := hext D.next (.inr (by omega))
    have hx : Agree.ext φ D.next E.next 1 D.next = E.next := by simp [Agree.ext]
    rw [hx] at e2 hφ
    refine ⟨D', D.next, φ', L', E', ?_, ?_, hA, hm, fun n hn => ?_⟩
    · simp only [createInsertContent, Arena.newNode_snd, e1, bind, Except.bind]
    · simp only [Wasm.createInsertContent, Arena.newNode_snd, e2, bind, Except.bind, hφ]
    · obtain ⟨g1, g2⟩ := hext n (.inl hn)
      exact ⟨g1, by rw [g2, h.ext_old 1 hn]⟩
  | .text tx, φ, L, D, E, h, _ => by
    refine ⟨_, D.next, _, _, _, rfl, ?_, h.newBoth (d := ⟨.text tx, .html⟩) (e := ⟨.text tx, .html⟩)
      rfl, .inr (by omega), fun n hn => ⟨.inl hn, h.ext_old 1 hn⟩⟩
    have hx : Agree.ext φ D.next E.next 1 D.next = E.next := by simp [Agree.ext]
    rw [hx]; rfl
  | .comment tx, φ, L, D, E, h, _ => by
    refine ⟨_, D.next, _, _, _, rfl, ?_, h.newBoth (d := ⟨.comment tx, .html⟩)
      (e := ⟨.comment tx, .html⟩) rfl, .inr (by omega), fun n hn => ⟨.inl hn, h.ext_old 1 hn⟩⟩
    have hx : Agree.ext φ D.next E.next 1 D.next = E.next := by simp [Agree.ext]
    rw [hx]; rfl

theorem appendAll (hN : PlainNames N) : ∀ (cs : List InsertContent) {φ : Nat → Nat}
    {L : Nat → Prop} {D E : Arena NodeData}, Agree N root eb φ L D s E t →
    InsertContent.FineL N cs → ∀ {n : Nat}, L n →
    ∃ D' φ' L' E', appendInsertContents D n cs = .ok D' ∧
      Wasm.appendContents E (φ n) cs = .ok E' ∧ Agree N root eb φ' L' D' s E' t ∧
      ∀ n, L n → L' n ∧ φ' n = φ n
  | [], φ, L, D, E, h, _, n, _ => ⟨D, φ, L, E, rfl, rfl, h, fun n hn => ⟨hn, rfl⟩⟩
  | c :: cs, φ, L, D, E, h, hc, n, hn => by
    obtain ⟨D1, m, φ1, L1, E1, e1, e2, h1, hm, hext⟩ := create hN c h hc.1
    obtain ⟨D1', m', e1', hg, hge, hlt, hmp, _, _⟩ := createInsertContent_tree c D h.dwf
    rw [e1] at e1'
    cases e1'
    obtain ⟨hn1, hφ1⟩ := hext n hn
    have hanc : ¬ D1.Anc m n := by
      intro ha
      have h3 := desc_new h.dwf hg.parent hge ha
      have h4 := h.lt n hn
      omega
    obtain ⟨e3, e4, h2⟩ := h1.append hm hmp hn1 hanc
    obtain ⟨D', φ', L', E', e5, e6, hA, hext'⟩ := appendAll hN cs h2 hc.2 hn1
    refine ⟨D', φ', L', E', ?_, ?_, hA, fun x hx => ?_⟩
    · simp only [appendInsertContents, e1, e3, e5, bind, Except.bind]
    · rw [← hφ1]
      simp only [Wasm.appendContents, e2, e4, e6, bind, Except.bind]
    · obtain ⟨g1, g2⟩ := hext x hx
      obtain ⟨g3, g4⟩ := hext' x g1
      exact ⟨g3, by rw [g4, g2]⟩
end

/-- The node of an insert patch is created on both sides. -/
theorem created (hN : PlainNames N) (parse : Str → Document) (h : Agree N root eb φ L D s E t)
    {nk : NodeKind} {cs : List InsertContent} (hc : nk.Clean) (hcs : cs ≠ [] → nk.IsElement)
    (hP : (insertPatch [] nk cs none).Names N) :
    ∃ D1 φ1 L1 E1, Created D D1 ⟨nk, .html⟩ ∧
      (∀ s at_ slot, applyPatch parse D s (insertPatch at_ nk cs slot) =
        insertAt D1 s at_ D.next slot) ∧
      (∀ q p pos slot, Wasm.findNode eb E t q = .ok p → (E.data p).kind.IsElement →
        Wasm.applyPatch eb E t (insertPatch (q ++ [pos]) nk cs slot) =
          Wasm.insertAtPosition E1 t p (φ1 D.next) pos slot) ∧
      Agree N root eb φ1 L1 D1 s E1 t ∧ L1 D.next ∧ ∀ n, L n → L1 n ∧ φ1 n = φ n := by
  have hx : Agree.ext φ D.next E.next 1 D.next = E.next := by simp [Agree.ext]
  cases nk with
  | document => exact hc.elim
  | element tag attrs =>
    obtain ⟨D1, e1, hcr, _, _⟩ := h.dwf.createdContent tag attrs cs
    have hsim : DataSim N ⟨.element tag attrs, .html⟩ ⟨.element tag (Wasm.setAttrs attrs), .html⟩ :=
      ⟨_, rfl, Wasm.setAttrs_written hN hP.1 hc, hP.1, hc⟩
    have h1 := h.newBoth hsim
    obtain ⟨D', φ', L', E', e1', e2, hA, hext⟩ := appendAll hN cs h1 hP.2 (n := D.next)
      (.inr (by omega))
    rw [e1] at e1'; cases e1'
    obtain ⟨hm, hφ⟩ := hext D.next (.inr (by omega))
    rw [hx] at e2 hφ
    refine ⟨D1, φ', L', E', hcr, ?_, ?_, hA, hm, fun n hn => ?_⟩
    · intro s at_ slot
      simp only [insertPatch, applyPatch, Arena.newNode_snd, e1, bind, Except.bind]
    · intro q p pos slot hq he
      simp only [insertPatch, Wasm.applyPatch, Wasm.insertParent_eq hq he, bind, Except.bind,
        Wasm.createInsertContent, Arena.newNode_snd, e2, hφ]
    · obtain ⟨g1, g2⟩ := hext n (.inl hn)
      exact ⟨g1, by rw [g2, h.ext_old 1 hn]⟩
  | text tx =>
    have e : cs = [] := by
      cases cs with
      | nil => rfl
      | cons c cs => obtain ⟨_, _, e⟩ := hcs (by simp); cases e
    subst e
    refine ⟨_, _, _, _, h.dwf.created ⟨.text tx, .html⟩, ?_, ?_, h.newBoth (d := ⟨.text tx, .html⟩)
      (e := ⟨.text tx, .html⟩) rfl, .inr (by omega), fun n hn => ⟨.inl hn, h.ext_old 1 hn⟩⟩
    · intro s at_ slot; rfl
    · intro q p pos slot hq he
      rw [hx]
      simp only [insertPatch, Wasm.applyPatch, Wasm.insertParent_eq hq he, bind, Except.bind,
        Arena.newNode_snd]
  | comment tx =>
    have e : cs = [] := by
      cases cs with
      | nil => rfl
      | cons c cs => obtain ⟨_, _, e⟩ := hcs (by simp); cases e
    subst e
    refine ⟨_, _, _, _, h.dwf.created ⟨.comment tx, .html⟩, ?_, ?_,
      h.newBoth (d := ⟨.comment tx, .html⟩)
      (e := ⟨.comment tx, .html⟩) rfl, .inr (by omega), fun n hn => ⟨.inl hn, h.ext_old 1 hn⟩⟩
    · intro s at_ slot; rfl
    · intro q p pos slot hq he
      rw [hx]
      simp only [insertPatch, Wasm.applyPatch, Wasm.insertParent_eq hq he, bind, Except.bind,
        Arena.newNode_snd]

/-- A free node `x` is put at its place on both sides. -/
theorem place (h : Agree N root eb φ L D s E t) (hJ : ∀ n, ¬ J n) {x p pos : Nat}
    {slot : Option Nat} (hx : L x) (hxp : D.parent x = none) (hp : L p) (hanc : ¬ D.Anc x p)
    (ha : AtPos J D p pos slot) {D' : Arena NodeData} {s' : Slots}
    (hput : ∀ k occ, slot = some k → (D.children p)[pos]? = some occ →
      DPut D D' x p pos occ ∧ s' = Arena.upd s k (some occ))
    (happ : slot = none → DApp D D' x p pos ∧ s' = s) :
    ∃ φ' L' E' t', Wasm.insertAtPosition E t (φ p) (φ x) pos slot = .ok (E', t') ∧
      Agree N root eb φ' L' D' s' E' t' ∧ ∀ n, L n → L' n ∧ φ' n = φ n := by
  have hxe := h.free x hx hxp
  have hance : ¬ E.Anc (φ x) (φ p) := fun h' => hanc (h.anc hx hp h')
  rcases ha with ⟨k, occ, rfl, hk, hocc⟩ | ⟨rfl, hj⟩
  · obtain ⟨hd, rfl⟩ := hput k occ rfl hocc
    have hoe : (E.children (φ p))[pos]? = some (φ occ) := by
      rw [h.kids p hp, List.getElem?_map, hocc]; rfl
    obtain ⟨E', e, hde⟩ := Wasm.replaceChild_put h.ewf hoe (h.elt x hx) hxe hance
    refine ⟨φ, L, E', Arena.upd t k (some (φ occ)), ?_, ?_, fun n hn => ⟨hn, rfl⟩⟩
    · unfold Wasm.insertAtPosition
      simp only [hoe, e, bind, Except.bind]
    · exact (h.put hx hp hd hde).setSlot hk (h.down p occ hp (List.mem_of_getElem? hocc))
  · obtain ⟨hd, rfl⟩ := happ rfl
    have hlen : (D.children p).length ≤ pos := by
      rcases Nat.lt_or_ge pos (D.children p).length with hlt | hge
      · exfalso
        rw [List.drop_eq_getElem_cons hlt] at hj
        exact hJ _ (hj (D.children p)[pos] List.mem_cons_self)
      · exact hge
    have hle : (E.children (φ p)).length = (D.children p).length := by
      rw [h.kids p hp, List.length_map]
    obtain ⟨E', e, hde⟩ := Wasm.fill_append_app h.ewf (h.elt p hp) (h.elt x hx) hxe hance
      (pos := pos) (by omega)
    refine ⟨_, _, E', t, ?_, h.app hx hp hlen hd hde, fun n hn => ⟨.inl hn, h.ext_old _ hn⟩⟩
    unfold Wasm.insertAtPosition
    rw [List.getElem?_eq_none (by omega)]
    simp only [e, bind, Except.bind]

/-- **The step**: a regular patch that is applied natively is applied in the browser with the same
effect. -/
theorem step (hN : PlainNames N) (parse : Str → Document) (h : Agree N root eb φ L D s E t)
    (hJ : ∀ n, ¬ J n) {P : Patch} (hr : Regular J D s P) (hP : P.Names N)
    (hs : forgetStep parse D s P = .ok (D', s')) :
    ∃ φ' L' E' t', Wasm.applyPatch eb E t P = .ok (E', t') ∧
      Agree N root eb φ' L' D' s' E' t' ∧ ∀ n, L n → L' n ∧ φ' n = φ n := by
  have hlaw := lawful_forget parse root
  cases hr with
  | setText q n s0 ns tx hq hd =>
    obtain ⟨hn, hqe, _⟩ := h.navigate hq
    have hdn := h.data n hn
    rcases hd with hd | hd
    · rw [hlaw.setText_text D s q n s0 ns tx h.s0 hq hd] at hs
      cases hs
      rw [hd] at hdn
      have hde : E.data (φ n) = ⟨.text s0, (E.data (φ n)).ns⟩ := by
        have h2 : (E.data (φ n)).kind = .text s0 := hdn
        cases e : E.data (φ n); rw [e] at h2; simp_all
      refine ⟨φ, L, _, t, ?_, h.setData hn (e := ⟨.text tx, (E.data (φ n)).ns⟩) rfl,
        fun n hn => ⟨hn, rfl⟩⟩
      simp only [Wasm.applyPatch, hqe, bind, Except.bind, Wasm.setTextContent]
      rw [hde]
    · rw [hlaw.setText_comment D s q n s0 ns tx h.s0 hq hd] at hs
      cases hs
      rw [hd] at hdn
      have hde : E.data (φ n) = ⟨.comment s0, (E.data (φ n)).ns⟩ := by
        have h2 : (E.data (φ n)).kind = .comment s0 := hdn
        cases e : E.data (φ n); rw [e] at h2; simp_all
      refine ⟨φ, L, _, t, ?_, h.setData hn (e := ⟨.comment tx, (E.data (φ n)).ns⟩) rfl,
        fun n hn => ⟨hn, rfl⟩⟩
      simp only [Wasm.applyPatch, hqe, bind, Except.bind, Wasm.setTextContent]
      rw [hde]
  | updateProps q n tag attrs ns changes hq hd hk hn ht =>
    obtain ⟨hnL, hqe, _⟩ := h.navigate hq
    have hdn := h.data n hnL
    rw [hlaw.updateProps D s q n tag attrs ns changes h.s0 hq hd hk hn ht] at hs
    cases hs
    rw [hd] at hdn
    obtain ⟨a', h2, h3, h4, _⟩ := hdn
    have hde : E.data (φ n) = ⟨.element tag a', (E.data (φ n)).ns⟩ := by
      cases e : E.data (φ n); rw [e] at h2; simp_all
    obtain ⟨g1, g2, g3⟩ := Wasm.updateAttrs_written hN h4 hk h3 hn hP
    refine ⟨φ, L, _, t, ?_, h.setData hnL (e := ⟨.element tag (Wasm.updateAttrs a' changes), (E.data (φ n)).ns⟩)
      ⟨_, rfl, g1, g2, g3⟩, fun n hn => ⟨hn, rfl⟩⟩
    have hf : changes.find? (fun c => decide (c.name = .text)) = none := by
      rw [List.find?_eq_none]
      intro c hc e
      simp only [decide_eq_true_eq] at e
      exact ht (List.mem_map.2 ⟨c, hc, e⟩)
    simp only [Wasm.applyPatch, hqe, bind, Except.bind, hf]
    rw [hde]
  | remove q n p hq hl hp =>
    obtain ⟨hn, hqe, hpar⟩ := h.navigate hq
    obtain ⟨p', hp', hpL⟩ := hpar hl
    rw [hp] at hp'; cases hp'
    obtain ⟨D1, e1, hr⟩ := hlaw.remove D s q n p h.s0 h.dwf hq hl hp
    rw [e1] at hs; cases hs
    obtain ⟨E', e2, hre⟩ := Wasm.replaceByEmpty_repl h.ewf (h.parent hpL hp)
    refine ⟨_, _, E', t, ?_, h.replaced hn hpL hr hre, fun n hn => ⟨.inl hn, h.ext_old 1 hn⟩⟩
    match q, hl with
    | a :: b :: c, _ => simp only [Wasm.applyPatch, hqe, bind, Except.bind, e2]
  | removeFree k n hk hsk hn hp =>
    rw [forgetStep_removeFree parse h.dwf hk hsk hn hp] at hs
    cases hs
    refine ⟨φ, L, E, Arena.upd t k none, ?_, (h.newD _).clearSlot hk, fun n hn => ⟨hn, rfl⟩⟩
    simp only [Wasm.applyPatch, if_neg hk]
  | insert q nk cs p pos slot hc hcs hq he hp ha =>
    obtain ⟨hpL, hqe, _⟩ := h.navigate hq
    have hee := KindSim.isElement (h.data p hpL) he
    have hP' : (insertPatch [] nk cs none).Names N := by
      cases nk <;> exact hP
    obtain ⟨D1, φ1, L1, E1, hcr, en, ew, h1, hx, hext⟩ := h.created hN parse hc hcs hP'
    obtain ⟨hp1, hpe⟩ := hext p hpL
    rw [ew q (φ p) pos slot hqe hee, ← hpe]
    rw [forgetStep_insertPatch, en] at hs
    have hch := hcr.children p hp
    have hq1 := hcr.navigate h.dwf hq
    suffices hh : ∃ φ' L' E' t', Wasm.insertAtPosition E1 t (φ1 p) (φ1 D.next) pos slot = .ok (E', t') ∧
        Agree N root eb φ' L' D' s' E' t' ∧ ∀ n, L1 n → L' n ∧ φ' n = φ1 n by
      obtain ⟨φ', L', E', t', e4, hA, hx4⟩ := hh
      refine ⟨φ', L', E', t', e4, hA, fun n hn => ?_⟩
      obtain ⟨g1, g2⟩ := hext n hn
      exact ⟨(hx4 n g1).1, by rw [(hx4 n g1).2, g2]⟩
    refine h1.place hJ (x := D.next) (p := p) (pos := pos) (slot := slot) hx hcr.self hp1
      (hcr.not_anc h.dwf hp) (by unfold AtPos at ha ⊢; rw [hch]; exact ha) ?_ ?_
    · rintro k occ rfl hocc
      obtain ⟨D2, e1, hput⟩ := insertAt_put (k := k) hcr.wf hq1 hocc hcr.next_lt hcr.self
        (hcr.not_anc h.dwf hp)
      rw [e1] at hs; cases hs
      exact ⟨hput, rfl⟩
    · rintro rfl
      obtain ⟨D2, e1, happ⟩ := insertAt_app (pos := pos) hcr.wf hq1
        (Nat.lt_trans hp hcr.next_lt) hcr.next_lt hcr.self (hcr.not_anc h.dwf hp)
      rw [e1] at hs; cases hs
      exact ⟨happ, rfl⟩
  | move q n q' p pos slot hq hn hc hm =>
    obtain ⟨hnL, hqe, hpar⟩ := h.navigate hq
    rcases hc with ⟨hl, p0, hp0⟩ | ⟨hl, hq0, hp0⟩
    · -- from a place in the tree
      obtain ⟨p0', hp0', hp0L⟩ := hpar hl
      rw [hp0] at hp0'; cases hp0'
      obtain ⟨D1, e1, hr⟩ := replaceByEmpty_repl h.dwf hp0
      obtain ⟨E1, e2, hre⟩ := Wasm.replaceByEmpty_repl h.ewf (h.parent hp0L hp0)
      have h1 := h.replaced hnL hp0L hr hre
      obtain ⟨m1, m2, m3, m4, m5⟩ := hm D1 s (.inl ⟨hl, rfl, fun p' hp' => by
        rw [hp0] at hp'; cases hp'; exact hr⟩)
      obtain ⟨hpL, hpe, _⟩ := h1.navigate m1
      have hee := KindSim.isElement (h1.data p hpL) m2
      have hnfree : D1.parent n = none := by rw [hr.parent, if_pos rfl]
      have hfo : ∀ s'', forget s (.move q (q' ++ [pos]) slot) s'' = s'' := by
        intro s''
        match q, hl with
        | a :: b :: c, _ => rfl
      have hn1 : n < D1.next := by rw [hr.next]; omega
      have := h1.place hJ (x := n) (p := p) (pos := pos) (slot := slot) (.inl hnL) hnfree hpL m4 m5
        (D' := D') (s' := s')
        (by
          rintro k occ rfl hocc
          obtain ⟨D2, e3, hput⟩ := insertAt_put (k := k) hr.wf m1 hocc hn1 hnfree m4
          simp only [forgetStep, applyPatch, hq, bind, Except.bind, if_pos hl, e1, e3, hfo] at hs
          cases hs
          exact ⟨hput, rfl⟩)
        (by
          rintro rfl
          obtain ⟨D2, e3, happ⟩ := insertAt_app (pos := pos) hr.wf m1 m3 hn1 hnfree m4
          simp only [forgetStep, applyPatch, hq, bind, Except.bind, if_pos hl, e1, e3, hfo] at hs
          cases hs
          exact ⟨happ, rfl⟩)
      rw [h.ext_old 1 hnL] at this
      obtain ⟨φ', L', E', t', e4, hA, hx4⟩ := this
      refine ⟨φ', L', E', t', ?_, hA, fun m hm => ⟨(hx4 m (.inl hm)).1, by
        rw [(hx4 m (.inl hm)).2, h.ext_old 1 hm]⟩⟩
      match q, hl with
      | a :: b :: c, _ =>
        simp only [Wasm.applyPatch, hqe, bind, Except.bind, e2, Wasm.insertParent_eq hpe hee, e4]
    · -- from a slot
      obtain ⟨k0, rfl⟩ : ∃ k, q = [k] := by
        match q, hl with
        | [k], _ => exact ⟨k, rfl⟩
      have hk0 : k0 ≠ 0 := by rintro rfl; exact hq0 rfl
      have hl' : ¬ 1 < [k0].length := by simp
      have hs0 : s k0 = some n := by
        simp only [Hotmeal.navigate] at hq
        cases e : s k0 with
        | none => rw [e] at hq; cases hq
        | some m => rw [e] at hq; cases hq; rfl
      have ht0 : t k0 = some (φ n) := (h.slots k0 n hk0 hs0).2
      have hle : SlotsLe (Arena.upd s k0 none) s := by
        intro i m hi
        rw [Arena.upd_apply] at hi
        split at hi
        · cases hi
        · exact hi
      have h1 := h.clearSlot hk0
      obtain ⟨m1, m2, m3, m4, m5⟩ := hm D (Arena.upd s k0 none) (.inr ⟨k0, rfl, rfl, .inr rfl⟩)
      obtain ⟨hpL, hpe, _⟩ := h1.navigate m1
      have hee := KindSim.isElement (h1.data p hpL) m2
      have := h1.place hJ (x := n) (p := p) (pos := pos) (slot := slot) hnL hp0 hpL m4 m5
        (D' := D') (s' := s')
        (by
          rintro k occ rfl hocc
          obtain ⟨D2, e3, hput⟩ := insertAt_put (k := k) h.dwf (navigate_mono hle m1) hocc hn hp0 m4
          simp only [forgetStep, applyPatch, hq, bind, Except.bind, if_neg hl',
            Arena.detach_of_parent_none hp0, e3, forget, if_neg hk0, Except.ok.injEq,
            Prod.mk.injEq] at hs
          obtain ⟨rfl, rfl⟩ := hs
          refine ⟨hput, ?_⟩
          funext i
          have hne : occ ≠ n := by
            rintro rfl
            rw [(h.dwf.mem_iff _ _).1 (List.mem_of_getElem? hocc)] at hp0; cases hp0
          simp only [Arena.upd_apply]
          by_cases e1 : i = k0
          · subst e1
            by_cases e2 : i = k
            · simp only [e2, true_and, if_true]
              rw [if_neg]
              rw [← e2, hs0]; simpa using hne
            · simp [e2]
          · simp [e1])
        (by
          rintro rfl
          obtain ⟨D2, e3, happ⟩ := insertAt_app (pos := pos) h.dwf (navigate_mono hle m1) m3 hn hp0 m4
          simp only [forgetStep, applyPatch, hq, bind, Except.bind, if_neg hl',
            Arena.detach_of_parent_none hp0, e3, forget, if_neg hk0, Except.ok.injEq,
            Prod.mk.injEq] at hs
          obtain ⟨rfl, rfl⟩ := hs
          refine ⟨happ, ?_⟩
          funext i
          simp only [Arena.upd_apply, and_true])
      obtain ⟨φ', L', E', t', e4, hA⟩ := this
      refine ⟨φ', L', E', t', ?_, hA⟩
      simp only [Wasm.applyPatch, ht0, bind, Except.bind, Wasm.insertParent_eq hpe hee, e4]

end Agree
end Hotmeal
