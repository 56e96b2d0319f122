import Verif.Lemmas.Forget
import Verif.Lemmas.WasmOps

set_option autoImplicit false
set_option linter.unusedSectionVars false

/-!
# The native and the browser applier side by side
-/

namespace Hotmeal

/-- Same kind, up to the representation of attribute names. -/
def KindSim (N : QualName → Prop) : NodeKind → NodeKind → Prop
  | .element t a, k => ∃ a', k = .element t a' ∧ a'.written = a.written ∧ (∀ kv ∈ a, N kv.1) ∧
      a.keys.Nodup
  | k, k' => k' = k

/-- Same data, up to the representation of attribute names and the namespace. -/
def DataSim (N : QualName → Prop) (d e : NodeData) : Prop := KindSim N d.kind e.kind

theorem KindSim.isElement {N : QualName → Prop} {k k' : NodeKind} (h : KindSim N k k')
    (hk : k.IsElement) : k'.IsElement := by
  obtain ⟨t, a, rfl⟩ := hk
  obtain ⟨a', e, _⟩ := h
  exact ⟨t, a', e⟩

/-- `E` below `eb` is a copy of `D` below `root`: `φ` maps the nodes of `D` that matter (`L`) to
nodes of `E`, and the slots `s` to the slots `t`. -/
structure Agree (N : QualName → Prop) (root eb : Nat) (φ : Nat → Nat) (L : Nat → Prop)
    (D : Arena NodeData) (s : Slots) (E : Arena NodeData) (t : Slots) : Prop where
  dwf : D.WF
  ewf : E.WF
  lt : ∀ n, L n → n < D.next
  elt : ∀ n, L n → φ n < E.next
  inj : ∀ n m, L n → L m → φ n = φ m → n = m
  kids : ∀ n, L n → E.children (φ n) = (D.children n).map φ
  down : ∀ n m, L n → m ∈ D.children n → L m
  data : ∀ n, L n → DataSim N (D.data n) (E.data (φ n))
  free : ∀ n, L n → D.parent n = none → E.parent (φ n) = none
  rootL : L root
  rootE : φ root = eb
  s0 : s 0 = some root
  slots : ∀ k n, k ≠ 0 → s k = some n → L n ∧ t k = some (φ n)

namespace Agree

variable {N : QualName → Prop} {root eb : Nat} {φ : Nat → Nat} {L : Nat → Prop}
  {D D' E E' : Arena NodeData} {s t : Slots}

/-- `φ` extended to `k` new nodes. -/
def ext (φ : Nat → Nat) (dn en k : Nat) : Nat → Nat :=
  fun m => if dn ≤ m ∧ m < dn + k then en + (m - dn) else φ m

/-- `L` extended by `k` new nodes. -/
def extL (L : Nat → Prop) (dn k : Nat) : Nat → Prop := fun m => L m ∨ (dn ≤ m ∧ m < dn + k)

theorem ext_old (h : Agree N root eb φ L D s E t) (k : Nat) {n : Nat} (hn : L n) :
    ext φ D.next E.next k n = φ n := by
  have := h.lt n hn
  unfold ext; rw [if_neg (by omega)]

theorem ext_map (h : Agree N root eb φ L D s E t) (k : Nat) {l : List Nat} (hl : ∀ n ∈ l, L n) :
    l.map (ext φ D.next E.next k) = l.map φ :=
  List.map_congr_left fun n hn => h.ext_old k (hl n hn)

theorem parent (h : Agree N root eb φ L D s E t) {n p : Nat} (hp : L p) (hn : D.parent n = some p) :
    E.parent (φ n) = some (φ p) := by
  rw [← h.ewf.mem_iff, h.kids p hp]
  exact List.mem_map_of_mem ((h.dwf.mem_iff _ _).2 hn)

/-- A change of the children of one node, with `k` new nodes. -/
theorem change (h : Agree N root eb φ L D s E t) {p : Nat} (hp : L p) (k : Nat)
    (dwf' : D'.WF) (ewf' : E'.WF) (hdn : D'.next = D.next + k) (hen : E'.next = E.next + k)
    (hc : ∀ m, m ≠ p → D'.children m = D.children m)
    (hce : ∀ x, x ≠ φ p → E'.children x = E.children x)
    (hmap : E'.children (φ p) = (D'.children p).map (ext φ D.next E.next k))
    (hsub : ∀ m ∈ D'.children p, extL L D.next k m)
    (hnew : ∀ m, D.next ≤ m → m < D.next + k →
      DataSim N (D'.data m) (E'.data (E.next + (m - D.next))))
    (hd : ∀ m, m < D.next → D'.data m = D.data m)
    (hde : ∀ m, m < E.next → E'.data m = E.data m) :
    Agree N root eb (ext φ D.next E.next k) (extL L D.next k) D' s E' t := by
  have hφ : ∀ n, L n → ext φ D.next E.next k n = φ n := fun n => h.ext_old k
  have hφn : ∀ n, D.next ≤ n → n < D.next + k → ext φ D.next E.next k n = E.next + (n - D.next) := by
    intro n h1 h2; unfold ext; rw [if_pos ⟨h1, h2⟩]
  have hplt := h.lt p hp
  have hinj : ∀ n m, extL L D.next k n → extL L D.next k m →
      ext φ D.next E.next k n = ext φ D.next E.next k m → n = m := by
    rintro n m (hn | hn) (hm | hm) e
    · rw [hφ n hn, hφ m hm] at e; exact h.inj n m hn hm e
    · rw [hφ n hn, hφn m hm.1 hm.2] at e
      have := h.elt n hn; omega
    · rw [hφ m hm, hφn n hn.1 hn.2] at e
      have := h.elt m hm; omega
    · rw [hφn n hn.1 hn.2, hφn m hm.1 hm.2] at e; omega
  have hkids : ∀ n, extL L D.next k n → E'.children (ext φ D.next E.next k n) =
      (D'.children n).map (ext φ D.next E.next k) := by
    rintro n (hn | hn)
    · rw [hφ n hn]
      by_cases e : n = p
      · subst e; exact hmap
      · rw [hc n e, hce _ (fun e2 => e (h.inj n p hn hp e2)), h.kids n hn,
          h.ext_map k fun m hm => h.down n m hn hm]
    · have hne : n ≠ p := by omega
      rw [hφn n hn.1 hn.2, hc n hne, h.dwf.children_ge hn.1]
      have := h.elt p hp
      rw [hce _ (by omega), h.ewf.children_ge (by omega)]
      rfl
  have hdown : ∀ n m, extL L D.next k n → m ∈ D'.children n → extL L D.next k m := by
    rintro n m (hn | hn) hm
    · by_cases e : n = p
      · subst e; exact hsub m hm
      · rw [hc n e] at hm; exact .inl (h.down n m hn hm)
    · rw [hc n (by omega), h.dwf.children_ge hn.1] at hm
      cases hm
  refine ⟨dwf', ewf', ?_, ?_, hinj, hkids, hdown, ?_, ?_, .inl h.rootL, ?_, h.s0, ?_⟩
  · rintro n (hn | hn)
    · have := h.lt n hn; omega
    · omega
  · rintro n (hn | hn)
    · rw [hφ n hn]; have := h.elt n hn; omega
    · rw [hφn n hn.1 hn.2]; omega
  · rintro n (hn | hn)
    · rw [hφ n hn, hd n (h.lt n hn), hde _ (h.elt n hn)]; exact h.data n hn
    · rw [hφn n hn.1 hn.2]; exact hnew n hn.1 hn.2
  · intro m hm hpar
    cases e : E'.parent (ext φ D.next E.next k m) with
    | none => rfl
    | some x =>
      exfalso
      have hx := (ewf'.mem_iff _ _).2 e
      have hno : ∀ y, m ∉ D'.children y := by
        intro y hy
        rw [dwf'.mem_iff, hpar] at hy; cases hy
      by_cases ex : x = φ p
      · rw [ex, hmap] at hx
        obtain ⟨m', hm', e'⟩ := List.mem_map.1 hx
        have := hinj _ _ (hsub m' hm') hm e'
        subst this
        exact hno p hm'
      · rw [hce x ex] at hx
        have hxp := (h.ewf.mem_iff _ _).1 hx
        rcases hm with hm | hm
        · rw [hφ m hm] at hx hxp
          cases ep : D.parent m with
          | none => rw [h.free m hm ep] at hxp; cases hxp
          | some y =>
            have hy := (h.dwf.mem_iff _ _).2 ep
            by_cases ey : y = p
            · subst ey
              rw [h.parent hp ep] at hxp
              cases hxp
              exact ex rfl
            · rw [← hc y ey] at hy
              exact hno y hy
        · rw [hφn m hm.1 hm.2, h.ewf.parent_ge (by omega)] at hxp
          cases hxp
  · rw [hφ _ h.rootL]; exact h.rootE
  · intro k' n hk' hs
    obtain ⟨h1, h2⟩ := h.slots k' n hk' hs
    exact ⟨.inl h1, by rw [hφ n h1]; exact h2⟩

/-- The data of one node changes. -/
theorem setData (h : Agree N root eb φ L D s E t) {n : Nat} (hn : L n) {d e : NodeData}
    (hde : DataSim N d e) : Agree N root eb φ L (D.setData n d) s (E.setData (φ n) e) t := by
  refine ⟨h.dwf.setData _ _, h.ewf.setData _ _, h.lt, h.elt, h.inj, h.kids, h.down, ?_, h.free,
    h.rootL, h.rootE, h.s0, h.slots⟩
  intro m hm
  simp only [Arena.setData, Arena.upd_apply]
  by_cases e : m = n
  · subst e; rw [if_pos rfl, if_pos rfl]; exact hde
  · rw [if_neg e, if_neg (fun e2 => e (h.inj m n hm hn e2))]; exact h.data m hm

/-- A node that does not matter is created. -/
theorem newD (h : Agree N root eb φ L D s E t) (d : NodeData) :
    Agree N root eb φ L (D.newNode d).1 s E t := by
  have hc := fun m => h.dwf.newNode_children d m
  have hp := fun m => h.dwf.newNode_parent d m
  refine ⟨h.dwf.newNode d, h.ewf, ?_, h.elt, h.inj, ?_, ?_, ?_, ?_, h.rootL, h.rootE, h.s0, h.slots⟩
  · intro n hn; have := h.lt n hn; rw [Arena.newNode_next]; omega
  · intro n hn; rw [hc]; exact h.kids n hn
  · intro n m hn hm; rw [hc] at hm; exact h.down n m hn hm
  · intro n hn
    have := h.lt n hn
    rw [show (D.newNode d).1.data n = D.data n from Arena.upd_ne _ _ (by omega)]
    exact h.data n hn
  · intro n hn e; rw [hp] at e; exact h.free n hn e

/-- The same node is created on both sides. -/
theorem newBoth (h : Agree N root eb φ L D s E t) {d e : NodeData} (hde : DataSim N d e) :
    Agree N root eb (ext φ D.next E.next 1) (extL L D.next 1) (D.newNode d).1 s (E.newNode e).1 t := by
  have hc := fun m => h.dwf.newNode_children d m
  have hce := fun m => h.ewf.newNode_children e m
  refine h.change h.rootL 1 (h.dwf.newNode d) (h.ewf.newNode e) (Arena.newNode_next _ _)
    (Arena.newNode_next _ _) (fun m _ => hc m) (fun m _ => hce m) ?_ ?_ ?_ ?_ ?_
  · rw [hc, hce, h.ext_map 1 fun m hm => h.down _ m h.rootL hm]
    exact h.kids _ h.rootL
  · intro m hm; rw [hc] at hm; exact .inl (h.down _ m h.rootL hm)
  · intro m h1 h2
    have : m = D.next := by omega
    subst this
    simpa [Arena.newNode] using hde
  · intro m hm; exact Arena.upd_ne _ _ (by omega)
  · intro m hm; exact Arena.upd_ne _ _ (by omega)

theorem emptySim : DataSim N Document.emptyText Document.emptyText := rfl

/-- A node is replaced by an empty text node on both sides. -/
theorem replaced (h : Agree N root eb φ L D s E t) {n p : Nat} (hn : L n) (hp : L p)
    (hr : D.Replaced D' n p Document.emptyText)
    (hre : E.Replaced E' (φ n) (φ p) Document.emptyText) :
    Agree N root eb (ext φ D.next E.next 1) (extL L D.next 1) D' s E' t := by
  refine h.change hp 1 hr.wf hre.wf hr.next hre.next ?_ ?_ ?_ ?_ ?_ ?_ ?_
  · intro m hm; rw [hr.children, if_neg hm]
  · intro m hm; rw [hre.children, if_neg hm]
  · rw [hr.children, if_pos rfl, hre.children, if_pos rfl, h.kids p hp]
    simp only [Arena.swapIn, List.map_map]
    apply List.map_congr_left
    intro m hm
    have hm' := h.down p m hp hm
    simp only [Function.comp_apply]
    by_cases e : m = n
    · subst e
      rw [if_pos rfl, if_pos rfl]
      simp [ext]
    · rw [if_neg e, if_neg (fun e2 => e (h.inj m n hm' hn e2)), h.ext_old 1 hm']
  · intro m hm
    rw [hr.children, if_pos rfl] at hm
    obtain ⟨x, hx, e⟩ := List.mem_map.1 hm
    split at e
    · subst e; right; omega
    · subst e; exact .inl (h.down p x hp hx)
  · intro m h1 h2
    have : m = D.next := by omega
    subst this
    rw [hr.data, if_pos rfl, Nat.sub_self, Nat.add_zero, hre.data, if_pos rfl]
    exact emptySim
  · intro m hm; rw [hr.data, if_neg (by omega)]
  · intro m hm; rw [hre.data, if_neg (by omega)]

theorem ext_zero : ext φ D.next E.next 0 = φ := by
  funext m; unfold ext; rw [if_neg (by omega)]

theorem extL_zero : extL L D.next 0 = L := by
  funext m; unfold extL; exact propext ⟨fun h => by rcases h with h | h; exact h; omega, .inl⟩

/-- A node takes the place of another one on both sides. -/
theorem put (h : Agree N root eb φ L D s E t) {x p pos occ occ' : Nat} (hx : L x) (hp : L p)
    (hr : DPut D D' x p pos occ) (hre : DPut E E' (φ x) (φ p) pos occ') :
    Agree N root eb φ L D' s E' t := by
  have := h.change (D' := D') (E' := E') hp 0 hr.wf hre.wf hr.next hre.next
    (fun m hm => by rw [hr.children, if_neg hm]) (fun m hm => by rw [hre.children, if_neg hm])
    (by rw [hr.children, if_pos rfl, hre.children, if_pos rfl, h.kids p hp, ext_zero, List.map_set])
    (by
      intro m hm
      rw [hr.children, if_pos rfl] at hm
      rw [extL_zero]
      rcases List.mem_or_eq_of_mem_set hm with hm | rfl
      · exact h.down p m hp hm
      · exact hx)
    (fun m h1 h2 => by omega) (fun m _ => hr.data m) (fun m _ => hre.data m)
  rwa [ext_zero, extL_zero] at this

/-- A node is added after the last child on both sides. -/
theorem app (h : Agree N root eb φ L D s E t) {x p pos : Nat} (hx : L x) (hp : L p)
    (hlen : (D.children p).length ≤ pos)
    (hr : DApp D D' x p pos) (hre : DApp E E' (φ x) (φ p) pos) :
    Agree N root eb (ext φ D.next E.next (pos - (D.children p).length))
      (extL L D.next (pos - (D.children p).length)) D' s E' t := by
  have hl : (E.children (φ p)).length = (D.children p).length := by rw [h.kids p hp, List.length_map]
  have hc : D'.children p = D.children p ++ List.range' D.next (pos - (D.children p).length) ++ [x] := by
    obtain ⟨rest, h1, h2⟩ := hr.children
    rw [List.drop_of_length_le hlen, List.suffix_nil] at h1
    rw [h2, h1, List.take_of_length_le hlen]
  have hce : E'.children (φ p) = E.children (φ p) ++
      List.range' E.next (pos - (D.children p).length) ++ [φ x] := by
    obtain ⟨rest, h1, h2⟩ := hre.children
    rw [List.drop_of_length_le (by omega), List.suffix_nil] at h1
    rw [h2, h1, List.take_of_length_le (by omega), hl]
  have hn := hr.next
  have hne := hre.next
  rw [hl] at hne
  refine h.change hp _ hr.wf hre.wf hn hne hr.children_ne hre.children_ne ?_ ?_ ?_ ?_ ?_
  · rw [hc, hce, h.kids p hp, List.map_append, List.map_append,
      h.ext_map _ fun m hm => h.down p m hp hm]
    congr 1
    · congr 1
      apply List.ext_getElem
      · simp
      · intro i h1 h2
        simp only [List.length_map, List.length_range'] at h1 h2
        simp [ext, h1]
    · simp [h.ext_old _ hx]
  · intro m hm
    rw [hc] at hm
    simp only [List.mem_append, List.mem_range'_1, List.mem_singleton] at hm
    rcases hm with (hm | hm) | rfl
    · exact .inl (h.down p m hp hm)
    · exact .inr hm
    · exact .inl hx
  · intro m h1 h2
    rw [hr.data, if_pos (by omega), hre.data, if_pos (by omega)]
    exact emptySim
  · intro m hm; rw [hr.data, if_neg (by omega)]
  · intro m hm; rw [hre.data, if_neg (by omega)]

theorem setSlot (h : Agree N root eb φ L D s E t) {k n : Nat} (hk : k ≠ 0) (hn : L n) :
    Agree N root eb φ L D (Arena.upd s k (some n)) E (Arena.upd t k (some (φ n))) := by
  refine ⟨h.dwf, h.ewf, h.lt, h.elt, h.inj, h.kids, h.down, h.data, h.free, h.rootL, h.rootE, ?_, ?_⟩
  · rw [Arena.upd_ne _ _ (Ne.symm hk)]; exact h.s0
  · intro k' n' hk' hs
    rw [Arena.upd_apply] at hs ⊢
    split
    · next e => rw [if_pos e] at hs; cases hs; exact ⟨hn, rfl⟩
    · next e => rw [if_neg e] at hs; exact h.slots k' n' hk' hs

theorem clearSlot (h : Agree N root eb φ L D s E t) {k : Nat} (hk : k ≠ 0) :
    Agree N root eb φ L D (Arena.upd s k none) E (Arena.upd t k none) := by
  refine ⟨h.dwf, h.ewf, h.lt, h.elt, h.inj, h.kids, h.down, h.data, h.free, h.rootL, h.rootE, ?_, ?_⟩
  · rw [Arena.upd_ne _ _ (Ne.symm hk)]; exact h.s0
  · intro k' n' hk' hs
    rw [Arena.upd_apply] at hs ⊢
    split
    · next e => rw [if_pos e] at hs; cases hs
    · next e => rw [if_neg e] at hs; exact h.slots k' n' hk' hs

theorem navLoop (h : Agree N root eb φ L D s E t) {n m : Nat} (hn : L n) {q : List Nat}
    (hq : navLoop D n q = .ok m) : L m ∧ Hotmeal.navLoop E (φ n) q = .ok (φ m) ∧
      (0 < q.length → ∃ p, D.parent m = some p ∧ L p) := by
  induction q generalizing n with
  | nil => cases hq; exact ⟨hn, rfl, fun h => absurd h (by simp)⟩
  | cons i is ih =>
    simp only [Hotmeal.navLoop, h.kids n hn, List.getElem?_map] at hq ⊢
    cases e : (D.children n)[i]? with
    | none => rw [e] at hq; cases hq
    | some c =>
      rw [e] at hq
      have hcm := List.mem_of_getElem? e
      obtain ⟨h1, h2, h3⟩ := ih (h.down n c hn hcm) hq
      refine ⟨h1, h2, fun _ => ?_⟩
      cases is with
      | nil => cases hq; exact ⟨n, (h.dwf.mem_iff _ _).1 hcm, hn⟩
      | cons j js => exact h3 (by simp)

theorem navigate (h : Agree N root eb φ L D s E t) {n : Nat} {q : Path}
    (hq : navigate D s q = .ok n) : L n ∧ Wasm.findNode eb E t q = .ok (φ n) ∧
      (1 < q.length → ∃ p, D.parent n = some p ∧ L p) := by
  cases q with
  | nil => simp [Hotmeal.navigate] at hq
  | cons k rest =>
    simp only [Hotmeal.navigate] at hq
    cases e : s k with
    | none => rw [e] at hq; cases hq
    | some m =>
      rw [e] at hq
      have hm : L m ∧ Wasm.view eb t k = some (φ m) := by
        by_cases ek : k = 0
        · subst ek
          rw [h.s0] at e; cases e
          exact ⟨h.rootL, by simp [Wasm.view, h.rootE]⟩
        · rw [Wasm.view, Arena.upd_ne _ _ ek]; exact h.slots k m ek e
      obtain ⟨h1, h2, h3⟩ := h.navLoop hm.1 hq
      refine ⟨h1, ?_, fun hl => h3 (by simpa using hl)⟩
      simp only [Wasm.findNode, Hotmeal.navigate, hm.2]
      exact h2

theorem anc (h : Agree N root eb φ L D s E t) {n p : Nat} (hn : L n) (hp : L p)
    (ha : E.Anc (φ n) (φ p)) : D.Anc n p := by
  have key : ∀ x y, E.Anc x y → x = φ n → ∃ m, L m ∧ φ m = y ∧ D.Anc n m := by
    intro x y hxy
    induction hxy with
    | refl => intro e; exact ⟨n, hn, e.symm, .refl⟩
    | step hpar _ ih =>
      intro e
      obtain ⟨m, h1, h2, h3⟩ := ih e
      have hmem := (h.ewf.mem_iff _ _).2 hpar
      rw [← h2, h.kids m h1] at hmem
      obtain ⟨c, hc, e2⟩ := List.mem_map.1 hmem
      exact ⟨c, h.down m c h1 hc, e2, .step ((h.dwf.mem_iff _ _).1 hc) h3⟩
  obtain ⟨m, h1, h2, h3⟩ := key _ _ ha rfl
  rw [← h.inj m p h1 hp h2]; exact h3

end Agree
end Hotmeal
