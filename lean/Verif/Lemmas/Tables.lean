import Verif.Model.Tables
import Verif.Lemmas.TwinScript

set_option autoImplicit false
set_option linter.unusedSectionVars false

/-!
# Tables and caches do not matter
-/

namespace Hotmeal
namespace Tables

/-! ## Vectors -/

theorem getElem?_store (v : List (Option Nat)) (i x : Nat) :
    (fun j => (VMatching.store v i x)[j]?.join) = Arena.upd (fun j => v[j]?.join) i (some x) := by
  funext j
  unfold VMatching.store Arena.upd
  by_cases hv : v.length ≤ i
  · rw [if_pos hv, List.getElem?_set]
    by_cases e : i = j
    · subst e
      simp only [if_true]
      rw [if_pos (by simp; omega)]; rfl
    · rw [if_neg e, if_neg (Ne.symm e), List.getElem?_append]
      split
      · rfl
      · next h =>
        show _ = v[j]?.join
        rw [List.getElem?_replicate, List.getElem?_eq_none (l := v) (by omega)]
        split <;> rfl
  · rw [if_neg hv, List.getElem?_set]
    by_cases e : i = j
    · subst e
      simp only [if_true]
      rw [if_pos (by omega)]; rfl
    · rw [if_neg e, if_neg (Ne.symm e)]

namespace VMatching

theorem forget_add (V : VMatching) (a b : Nat) : (V.add a b).forget = V.forget.add a b := by
  unfold forget Matching.add add
  have h1 := getElem?_store V.aToB a b
  have h2 := getElem?_store V.bToA b a
  simp only [Matching.mk.injEq, and_true]
  exact ⟨h1, h2⟩

theorem forget_empty : empty.forget = Matching.empty := by
  unfold forget empty Matching.empty
  simp only [Matching.mk.injEq, and_true]
  exact ⟨funext fun _ => rfl, funext fun _ => rfl⟩

theorem containsA_eq (V : VMatching) (a : Nat) : V.containsA a = V.forget.containsA a := by
  show V.aToB[a]?.any Option.isSome = V.aToB[a]?.join.isSome
  rcases V.aToB[a]? with _ | _ | _ <;> rfl

theorem containsB_eq (V : VMatching) (b : Nat) : V.containsB b = V.forget.containsB b := by
  show V.bToA[b]?.any Option.isSome = V.bToA[b]?.join.isSome
  rcases V.bToA[b]? with _ | _ | _ <;> rfl

theorem getB_eq (V : VMatching) (a : Nat) : V.getB a = V.forget.getB a := rfl
theorem getA_eq (V : VMatching) (b : Nat) : V.getA b = V.forget.getA b := rfl

end VMatching

/-! ## The first phase -/

variable {H : Type} [DecidableEq H]

/-- `TB` with another function for positions. -/
@[reducible] def withPos (TB : DiffTree H) (f : Nat → Nat) : DiffTree H := { TB with position := f }

variable {TA TB : DiffTree H} {f : Nat → Nat}

theorem forget_matchSubtrees (k : Nat) : ∀ a b V, (matchSubtrees TA TB k a b V).forget =
    Hotmeal.matchSubtrees TA (withPos TB f) k a b V.forget := by
  induction k with
  | zero => intro a b V; rfl
  | succ k ih =>
    intro a b V
    simp only [matchSubtrees, Hotmeal.matchSubtrees, VMatching.containsA_eq, VMatching.containsB_eq]
    split
    · rfl
    · rw [← VMatching.forget_add]
      split
      · rfl
      · generalize V.add a b = W
        generalize (TA.children a).zip (TB.children b) = l
        induction l generalizing W with
        | nil => rfl
        | cons p l ihl => simp only [List.foldl_cons]; rw [← ih, ihl]

theorem childCandidates_eq (V : VMatching) (a b : Nat) : childCandidates TA TB V a b =
    Hotmeal.childCandidates TA (withPos TB f) V.forget a b := by
  simp only [childCandidates, Hotmeal.childCandidates, VMatching.containsB_eq]

theorem forget_topDownLoop (cfg : Config) (d k : Nat) : ∀ st V, (topDownLoop TA TB cfg d k st V).forget =
    Hotmeal.topDownLoop TA (withPos TB f) cfg d k st V.forget := by
  induction k with
  | zero => intro st V; rw [topDownLoop, Hotmeal.topDownLoop]
  | succ k ih =>
    intro st V
    cases st with
    | nil => rw [topDownLoop, Hotmeal.topDownLoop] <;> simp
    | cons p st =>
      obtain ⟨a, b⟩ := p
      simp only [topDownLoop, Hotmeal.topDownLoop, ← VMatching.containsA_eq, ← VMatching.containsB_eq]
      split
      · exact ih _ _
      · split
        · exact ih _ _
        · split
          · rw [ih, forget_matchSubtrees (f := f)]
          · split
            · rw [ih]
              split
              · rw [VMatching.forget_add]
              · rfl
            · rw [ih, childCandidates_eq (f := f)]

theorem forget_topDown (cfg : Config) (V : VMatching) : (topDown TA TB cfg V).forget =
    Hotmeal.topDown TA (withPos TB f) cfg V.forget := forget_topDownLoop ..

theorem ancestryCompatible_eq (V : VMatching) (a b : Nat) : ancestryCompatible TA TB V a b =
    Hotmeal.ancestryCompatible TA (withPos TB f) V.forget a b := by
  unfold ancestryCompatible Hotmeal.ancestryCompatible
  simp only [← VMatching.getB_eq, ← VMatching.getA_eq]
  congr 1
  · cases TA.parent a with
    | none => rfl
    | some pa =>
      simp only [Option.bind_some]
      cases V.getB pa <;> rfl
  · cases TB.parent b with
    | none => rfl
    | some pb =>
      simp only [Option.bind_some]
      cases V.getA pb <;> rfl

/-! ## Sets -/

theorem foldl_insertSet (l : List Nat) : ∀ s : List Nat, s.Nodup →
    (l.foldl insertSet s).Nodup ∧ ∀ x, x ∈ l.foldl insertSet s ↔ x ∈ s ∨ x ∈ l := by
  induction l with
  | nil => intro s hs; exact ⟨hs, fun x => by simp⟩
  | cons y l ih =>
    intro s hs
    simp only [List.foldl_cons]
    have h1 : (insertSet s y).Nodup := by
      unfold insertSet
      split
      · exact hs
      · next h => exact List.nodup_cons.2 ⟨h, hs⟩
    have h2 : ∀ x, x ∈ insertSet s y ↔ x ∈ s ∨ x = y := by
      intro x
      unfold insertSet
      split
      · next h => exact ⟨.inl, fun e => e.elim id fun e => e ▸ h⟩
      · simp only [List.mem_cons]; exact or_comm
    obtain ⟨h3, h4⟩ := ih _ h1
    refine ⟨h3, fun x => ?_⟩
    rw [h4, h2, List.mem_cons, or_assoc]

theorem mem_opaqueSet (T : DiffTree H) (x : Nat) : x ∈ opaqueSet T ↔ x ∈ opaqueDescendants T := by
  unfold opaqueSet opaqueDescendants
  suffices ∀ (l s : List Nat), x ∈ l.foldl (fun s n =>
      if T.isOpaque n then (T.descendants n).foldl (fun s d => if d != n then insertSet s d else s) s else s) s ↔
      x ∈ s ∨ x ∈ l.flatMap fun n => if T.isOpaque n then (T.descendants n).filter (· != n) else [] by
    rw [this]; simp
  intro l
  induction l with
  | nil => intro s; simp
  | cons n l ih =>
    intro s
    rw [List.foldl_cons, ih, List.flatMap_cons, List.mem_append, ← or_assoc]
    refine or_congr_left ?_
    split
    · generalize T.descendants n = ds
      induction ds generalizing s with
      | nil => simp
      | cons d ds ihd =>
        rw [List.foldl_cons, ihd]
        by_cases e : (d != n) = true
        · rw [if_pos e, List.filter_cons_of_pos (by exact e), List.mem_cons, ← or_assoc]
          refine or_congr_left ?_
          unfold insertSet
          split
          · next h => exact ⟨.inl, fun e => e.elim id fun e => e ▸ h⟩
          · rw [List.mem_cons]; exact or_comm
        · rw [if_neg e, List.filter_cons_of_neg (by exact e)]
    · simp

theorem byKind_eq (V : VMatching) {o o' : List Nat} (ho : ∀ x, x ∈ o ↔ x ∈ o') (k : HKind) :
    (byKind TB V o k).getD [] = bByKind (withPos TB f) V.forget o' k := by
  unfold byKind bByKind
  simp only [← VMatching.containsB_eq]
  suffices ∀ (l : List Nat) (m : HKind → Option (List Nat)), ((l.foldl (fun m b =>
      if !V.containsB b && !(decide (b ∈ o)) then
        fun k => if k = TB.kind b then some ((m (TB.kind b)).getD [] ++ [b]) else m k
      else m) m) k).getD [] = (m k).getD [] ++
      l.filter fun b => !V.containsB b && !(decide (b ∈ o')) && TB.kind b == k by
    rw [this]; simp
  intro l
  induction l with
  | nil => intro m; simp
  | cons b l ih =>
    intro m
    rw [List.foldl_cons, ih, List.filter_cons]
    have e : decide (b ∈ o') = decide (b ∈ o) := by simp only [ho]
    rw [e]
    by_cases h : (!V.containsB b && !(decide (b ∈ o))) = true
    · rw [if_pos h, h]
      by_cases hk : k = TB.kind b
      · subst hk; simp
      · have : (TB.kind b == k) = false := beq_eq_false_iff_ne.2 (Ne.symm hk)
        simp [this, hk]
    · rw [if_neg h]
      rw [Bool.not_eq_true] at h
      simp [h]

/-! ## Computations with caches -/

/-- Started with right caches, the computation returns a value with the property and leaves right caches. -/
def Yields {α : Type} (Inv : Caches → Prop) (x : StateM Caches α) (P : α → Prop) : Prop :=
  ∀ c, Inv c → P (x c).1 ∧ Inv (x c).2

section
variable {α β : Type} {Inv : Caches → Prop} {P : α → Prop} {Q : β → Prop}

theorem Yields.pure {v : α} (h : P v) : Yields Inv (pure v) P := fun _ hc => ⟨h, hc⟩

theorem Yields.bind {x : StateM Caches α} {g : α → StateM Caches β} (hx : Yields Inv x P)
    (hg : ∀ v, P v → Yields Inv (g v) Q) : Yields Inv (x >>= g) Q := by
  intro c hc
  obtain ⟨h1, h2⟩ := hx c hc
  exact hg _ h1 _ h2

end

/-- The caches hold what the tree says. -/
structure Right (TA TB : DiffTree H) (f : Nat → Nat) (c : Caches) : Prop where
  descA : ∀ n s, c.descA n = some s → s.Nodup ∧ ∀ x, x ∈ s ↔ x ∈ TA.descendants n
  descB : ∀ n s, c.descB n = some s → s.Nodup ∧ ∀ x, x ∈ s ↔ x ∈ TB.descendants n
  position : ∀ n p, c.position n = some p → p = f n

theorem yields_getDescA (n : Nat) : Yields (Right TA TB f) (getDescA TA n)
    fun s => s.Nodup ∧ ∀ x, x ∈ s ↔ x ∈ TA.descendants n := by
  intro c hc
  have key : getDescA TA n c = match c.descA n with
    | some s => (s, c)
    | none => ((TA.descendants n).foldl insertSet [],
      { c with descA := Arena.upd c.descA n (some ((TA.descendants n).foldl insertSet [])) }) := by
    unfold getDescA
    simp only [bind, StateT.bind, get, getThe, MonadStateOf.get, StateT.get, pure]
    cases c.descA n <;> rfl
  rw [key]
  cases e : c.descA n with
  | some s => exact ⟨hc.descA n s e, hc⟩
  | none =>
    obtain ⟨h1, h2⟩ := foldl_insertSet (TA.descendants n) [] List.nodup_nil
    have h3 : ∀ x, x ∈ (TA.descendants n).foldl insertSet [] ↔ x ∈ TA.descendants n := by
      intro x; rw [h2]; simp
    refine ⟨⟨h1, h3⟩, ?_, hc.descB, hc.position⟩
    intro k s hk
    simp only [Arena.upd] at hk
    split at hk
    · next e => cases hk; subst e; exact ⟨h1, h3⟩
    · exact hc.descA k s hk

theorem yields_getDescB (n : Nat) : Yields (Right TA TB f) (getDescB TB n)
    fun s => s.Nodup ∧ ∀ x, x ∈ s ↔ x ∈ TB.descendants n := by
  intro c hc
  have key : getDescB TB n c = match c.descB n with
    | some s => (s, c)
    | none => ((TB.descendants n).foldl insertSet [],
      { c with descB := Arena.upd c.descB n (some ((TB.descendants n).foldl insertSet [])) }) := by
    unfold getDescB
    simp only [bind, StateT.bind, get, getThe, MonadStateOf.get, StateT.get, pure]
    cases c.descB n <;> rfl
  rw [key]
  cases e : c.descB n with
  | some s => exact ⟨hc.descB n s e, hc⟩
  | none =>
    obtain ⟨h1, h2⟩ := foldl_insertSet (TB.descendants n) [] List.nodup_nil
    have h3 : ∀ x, x ∈ (TB.descendants n).foldl insertSet [] ↔ x ∈ TB.descendants n := by
      intro x; rw [h2]; simp
    refine ⟨⟨h1, h3⟩, hc.descA, ?_, hc.position⟩
    intro k s hk
    simp only [Arena.upd] at hk
    split at hk
    · next e => cases hk; subst e; exact ⟨h1, h3⟩
    · exact hc.descB k s hk

/-- What `position` returns: the position of a node in the table, and 0 for other nodes. -/
def posOf (cast : Nat → Nat) (m : Map (NodeInfo H)) (D : Arena NodeData) (n : Nat) : Nat :=
  match m n with
  | none => 0
  | some _ => match D.parent n with
    | none => 0
    | some q => cast (Arena.posIn (D.children q) n)

theorem yields_position (cast : Nat → Nat) (m : Map (NodeInfo H)) (D : Arena NodeData) (n : Nat) :
    Yields (Right TA TB (posOf cast m D)) (position cast m D n) (· = posOf cast m D n) := by
  intro c hc
  unfold position
  cases em : m n with
  | none => exact ⟨by unfold posOf; rw [em]; rfl, hc⟩
  | some i =>
    simp only [bind, StateT.bind, get, getThe, MonadStateOf.get, StateT.get, pure]
    cases e : c.position n with
    | some p => exact ⟨hc.position n p e, hc⟩
    | none =>
      have hp : posOf cast m D n = match D.parent n with
        | none => 0
        | some q => cast (Arena.posIn (D.children q) n) := by unfold posOf; rw [em]
      have key : ∀ d, d = posOf cast m D n → Right TA TB (posOf cast m D)
          { c with position := Arena.upd c.position n (some d) } := by
        rintro d rfl
        refine ⟨hc.descA, hc.descB, ?_⟩
        intro k p hk
        simp only [Arena.upd] at hk
        split at hk
        · next e => subst e; exact (Option.some.inj hk).symm
        · exact hc.position k p hk
      cases hq : D.parent n with
      | none => rw [hq] at hp; exact ⟨hp.symm, key _ hp.symm⟩
      | some q => rw [hq] at hp; exact ⟨hp.symm, key _ hp.symm⟩

theorem find_congr {α : Type} {p q : α → Bool} {l : List α} (h : ∀ x ∈ l, p x = q x) : l.find? p = l.find? q := by
  induction l with
  | nil => rfl
  | cons x l ih =>
    rw [List.find?_cons, List.find?_cons, h x List.mem_cons_self, ih fun y hy => h y (List.mem_cons_of_mem _ hy)]

theorem yields_findM {Inv : Caches → Prop} {p : Nat → StateM Caches Bool} {q : Nat → Bool} (l : List Nat)
    (h : ∀ x ∈ l, Yields Inv (p x) (· = q x)) : Yields Inv (findM p l) (· = l.find? q) := by
  induction l with
  | nil => exact .pure rfl
  | cons x l ih =>
    rw [findM]
    refine (h x List.mem_cons_self).bind ?_
    rintro r rfl
    rw [List.find?_cons]
    cases q x with
    | true => exact .pure rfl
    | false => exact ih fun y hy => h y (List.mem_cons_of_mem _ hy)

section

/-- The scores `sc` decide as exact fractions do, for all nodes of the two trees. `rel` relates a score to its exact
value. -/
structure Agrees (sc : Scoring) (cfg : Config) (rel : sc.Score → Score → Prop) (TA TB : DiffTree H) : Prop where
  sim : ∀ a ∈ TA.iter, ∀ b, (b ∈ TB.iter ∨ ∃ p, b ∈ TB.children p) →
    sc.similar (TA.props a) (TB.props b) = ((TA.props a).similarity (TB.props b)).ge cfg.threshold
  dice : ∀ a ∈ TA.iter, ∀ b ∈ TB.iter, ∀ c ≤ (TA.descendants a).length,
    rel (sc.dice c (TA.descendants a).length (TB.descendants b).length)
      ((Scoring.exact cfg).dice c (TA.descendants a).length (TB.descendants b).length)
  enough : ∀ x s, rel x s → sc.enough x = s.ge cfg.threshold
  better : ∀ x s y t, rel x s → rel y t → sc.better x y = s.gt t

theorem agrees_exact (cfg : Config) (TA TB : DiffTree H) : Agrees (Scoring.exact cfg) cfg (fun s t : Score => s = t) TA TB :=
  ⟨fun _ _ _ _ => rfl, fun _ _ _ _ _ _ => rfl, (by rintro x s rfl; rfl), (by rintro x s y t rfl rfl; rfl)⟩

variable {order : List Nat → List Nat} {pos : Nat → StateM Caches Nat} {cfg : Config} {sc : Scoring}
  {rel : sc.Score → Score → Prop} (hag : Agrees sc cfg rel TA TB)
include hag

theorem yields_dice (horder : ∀ l, (order l).Perm l) (hA : ∀ n, (TA.descendants n).Nodup)
    (hB : ∀ n, (TB.descendants n).Nodup) (V : VMatching) {a b : Nat}
    (hia : a ∈ TA.iter) (hib : b ∈ TB.iter) : Yields (Right TA TB f) (dice sc order TA TB V a b)
      fun x => rel x (Hotmeal.dice TA (withPos TB f) V.forget a b) := by
  unfold dice
  refine (yields_getDescA a).bind ?_
  rintro da ⟨ha, hma⟩
  refine (yields_getDescB b).bind ?_
  rintro db ⟨hb, hmb⟩
  refine .pure ?_
  have pa : da.Perm (TA.descendants a) := (List.perm_ext_iff_of_nodup ha (hA a)).2 hma
  have pb : db.Perm (TB.descendants b) := (List.perm_ext_iff_of_nodup hb (hB b)).2 hmb
  have hcount : ((order da).filter fun x => ((V.getB x).map fun y => decide (y ∈ db)).getD false).length =
      ((TA.descendants a).filter fun x => ((V.getB x).map fun y => decide (y ∈ TB.descendants b)).getD false).length := by
    rw [(((horder da).trans pa).filter _).length_eq]
    simp only [hmb]
  rw [hcount, pa.length_eq, pb.length_eq]
  have he : ∀ l : List Nat, l.isEmpty = (l.length == 0) := fun l => by cases l <;> rfl
  have hf : (fun x => match V.forget.getB x with
      | none => false
      | some y => decide (y ∈ TB.descendants b)) =
      fun x => ((V.getB x).map fun y => decide (y ∈ TB.descendants b)).getD false := by
    funext x
    rw [← VMatching.getB_eq]
    cases V.getB x <;> rfl
  have key := hag.dice a hia b hib _ (List.length_filter_le
    (fun x => ((V.getB x).map fun y => decide (y ∈ TB.descendants b)).getD false) (TA.descendants a))
  have e : Hotmeal.dice TA (withPos TB f) V.forget a b = (Scoring.exact cfg).dice
      ((TA.descendants a).filter fun x => ((V.getB x).map fun y => decide (y ∈ TB.descendants b)).getD false).length
      (TA.descendants a).length (TB.descendants b).length := by
    rw [← hf]
    unfold Hotmeal.dice Scoring.exact
    simp only [he]
    rfl
  rw [e]
  exact key

/-- The best candidate found with `sc` and with exact fractions. -/
def BestOf {σ : Type} (rel : σ → Score → Prop) : Option (Nat × σ) → Option (Nat × Score) → Prop
  | none, none => True
  | some (b, x), some (b', s) => b = b' ∧ rel x s
  | _, _ => False

theorem yields_diceBest (horder : ∀ l, (order l).Perm l) (hA : ∀ n, (TA.descendants n).Nodup)
    (hB : ∀ n, (TB.descendants n).Nodup) (V : VMatching) {a : Nat} (hia : a ∈ TA.iter) (bs : List Nat) :
    (∀ b ∈ bs, b ∈ TB.iter) → ∀ best best', BestOf rel best best' →
    Yields (Right TA TB f) (diceBest sc order TA TB V a bs best)
      fun r => BestOf rel r (Hotmeal.diceBest TA (withPos TB f) cfg V.forget a bs best') := by
  induction bs with
  | nil => intro _ best best' hr; exact .pure hr
  | cons b bs ih =>
    intro hbs best best' hr
    have ih := ih fun b' hb' => hbs b' (List.mem_cons_of_mem _ hb')
    have hib := hbs b List.mem_cons_self
    have hsim := hag.sim a hia b (.inl hib)
    rw [diceBest, Hotmeal.diceBest]
    simp only [← VMatching.containsB_eq, ← ancestryCompatible_eq (f := f), hsim]
    have e : (withPos TB f).childCount b = TB.childCount b := rfl
    rw [e]
    split
    · exact ih _ _ hr
    · split
      · exact ih _ _ hr
      · split
        · exact ih _ _ hr
        · split
          · exact ih _ _ hr
          · refine (yields_dice hag horder hA hB V hia hib).bind ?_
            intro x hx
            generalize Hotmeal.dice TA (withPos TB f) V.forget a b = s at hx
            rw [hag.enough x s hx]
            cases best with
            | none =>
              cases best' with
              | some t => exact hr.elim
              | none =>
                simp only [Option.isNone_none, Bool.true_or]
                split
                · exact ih _ _ ⟨rfl, hx⟩
                · exact ih _ _ hr
            | some t =>
              cases best' with
              | none => exact hr.elim
              | some t' =>
                simp only [Option.isNone_some, Bool.false_or, Option.any_some, hag.better x s t.2 t'.2 hx hr.2]
                split
                · exact ih _ _ ⟨rfl, hx⟩
                · exact ih _ _ hr

variable (hpos : ∀ n, Yields (Right TA TB f) (pos n) (· = f n))
include hpos

omit hag in
theorem yields_posTest {b : Nat} (t : Nat) (r : Bool) : Yields (Right TA TB f) (do
    let p ← pos b
    pure (p == t && r)) (· = (f b == t && r)) := by
  refine (hpos b).bind ?_
  rintro p rfl
  exact .pure rfl

theorem yields_pass1Position (V : VMatching) {a : Nat} (hia : a ∈ TA.iter) (pb : Nat) : Yields (Right TA TB f)
    (pass1Position sc pos TA TB V a pb) (· = Hotmeal.pass1Position TA (withPos TB f) cfg V.forget a pb) := by
  unfold pass1Position Hotmeal.pass1Position
  simp only [← VMatching.containsB_eq]
  refine yields_findM _ fun b hb => ?_
  rw [← hag.sim a hia b (.inr ⟨pb, (List.mem_filter.1 hb).1⟩)]
  exact yields_posTest hpos _ _

omit hpos in
theorem yields_pass1Dice (horder : ∀ l, (order l).Perm l) (hA : ∀ n, (TA.descendants n).Nodup)
    (hB : ∀ n, (TB.descendants n).Nodup) {k : HKind → Option (List Nat)} {k' : HKind → List Nat}
    (hk : ∀ x, (k x).getD [] = k' x) (hki : ∀ x, ∀ b ∈ k' x, b ∈ TB.iter) (V : VMatching) {a : Nat}
    (hia : a ∈ TA.iter) : Yields (Right TA TB f) (pass1Dice sc order TA TB k V a)
    (fun W => W.forget = Hotmeal.pass1Dice TA (withPos TB f) cfg k' V.forget a) := by
  unfold pass1Dice Hotmeal.pass1Dice
  rw [hk]
  refine (yields_diceBest hag horder hA hB V hia _ (hki _) none none trivial).bind ?_
  intro best hr
  generalize Hotmeal.diceBest TA (withPos TB f) cfg V.forget a (k' (TA.kind a)) none = best' at hr ⊢
  cases best with
  | some r =>
    cases best' with
    | none => exact hr.elim
    | some r' => obtain ⟨e, _⟩ := hr; simp only [e]; exact .pure (VMatching.forget_add ..)
  | none =>
    cases best' with
    | some r' => exact hr.elim
    | none =>
    simp only
    split
    · rw [List.head?_filter]
      have e : ∀ b, (withPos TB f).childCount b = TB.childCount b := fun _ => rfl
      have hf := find_congr (l := k' (TA.kind a)) (p := fun b => !V.containsB b && decide (TB.childCount b > 0) &&
          (TB.parent b).isNone && sc.similar (TA.props a) (TB.props b))
        (q := fun b => !V.forget.containsB b && decide (0 < TB.childCount b) && (TB.parent b).isNone &&
          ((TA.props a).similarity (TB.props b)).ge cfg.threshold)
        fun b hb => by simp only [hag.sim a hia b (.inl (hki _ b hb)), VMatching.containsB_eq, gt_iff_lt]
      simp only [e]
      erw [hf]
      cases List.find? (fun b => !V.forget.containsB b && decide (0 < TB.childCount b) && (TB.parent b).isNone &&
        ((TA.props a).similarity (TB.props b)).ge cfg.threshold) (k' (TA.kind a)) with
      | some b => exact .pure (VMatching.forget_add ..)
      | none => exact .pure rfl
    · exact .pure rfl

theorem yields_pass1Step (horder : ∀ l, (order l).Perm l) (hA : ∀ n, (TA.descendants n).Nodup)
    (hB : ∀ n, (TB.descendants n).Nodup) {k : HKind → Option (List Nat)} {k' : HKind → List Nat}
    (hk : ∀ x, (k x).getD [] = k' x) (hki : ∀ x, ∀ b ∈ k' x, b ∈ TB.iter) {o o' : List Nat}
    (ho : ∀ x, x ∈ o ↔ x ∈ o') (V : VMatching) {a : Nat} (hia : a ∈ TA.iter) :
    Yields (Right TA TB f) (pass1Step sc order pos TA TB o k V a)
    (fun W => W.forget = Hotmeal.pass1Step TA (withPos TB f) cfg o' k' V.forget a) := by
  unfold pass1Step Hotmeal.pass1Step
  simp only [← VMatching.containsA_eq, ho]
  split
  · exact .pure rfl
  · have e : (TA.parent a).bind V.getB = (TA.parent a).bind V.forget.getB := rfl
    rw [e]
    cases (TA.parent a).bind V.forget.getB with
    | none => exact yields_pass1Dice hag horder hA hB hk hki V hia
    | some pb =>
      refine (yields_pass1Position hag hpos V hia pb).bind ?_
      rintro best rfl
      cases e : Hotmeal.pass1Position TA (withPos TB f) cfg V.forget a pb with
      | some b => simp only [e]; exact .pure (VMatching.forget_add ..)
      | none => simp only [e]; exact yields_pass1Dice hag horder hA hB hk hki V hia

theorem yields_pass2Local (V : VMatching) {a : Nat} (hia : a ∈ TA.iter) (pb : Nat) : Yields (Right TA TB f)
    (pass2Local sc pos TA TB V a pb) (· = Hotmeal.pass2Local TA (withPos TB f) cfg V.forget a pb) := by
  unfold pass2Local Hotmeal.pass2Local
  simp only [← VMatching.containsB_eq]
  have e : ∀ b, (withPos TB f).childCount b = TB.childCount b := fun _ => rfl
  simp only [e]
  have hl : ∀ b ∈ (TB.children pb).filter (fun b => !V.containsB b && TB.childCount b == 0 && TB.kind b == TA.kind a),
      b ∈ TB.children pb := fun b hb => (List.mem_filter.1 hb).1
  generalize (TB.children pb).filter (fun b => !V.containsB b && TB.childCount b == 0 && TB.kind b == TA.kind a) = l
    at hl ⊢
  refine (yields_findM (q := fun b => f b == TA.position a && TB.hash b == TA.hash a) l
    fun b _ => yields_posTest hpos _ _).bind ?_
  rintro r rfl
  cases l.find? (fun b => f b == TA.position a && TB.hash b == TA.hash a) with
  | some b => exact .pure rfl
  | none =>
    simp only [Option.orElse_none]
    cases l.find? (fun b => TB.hash b == TA.hash a) with
    | some b => exact .pure rfl
    | none =>
      refine yields_findM l fun b hb => ?_
      rw [← hag.sim a hia b (.inr ⟨pb, hl b hb⟩)]
      exact yields_posTest hpos _ _

omit hpos in
theorem pass2Global_eq (V : VMatching) {a : Nat} (hia : a ∈ TA.iter) (bs : List Nat) : (∀ b ∈ bs, b ∈ TB.iter) →
    ∀ best, pass2Global sc TA TB V a bs best = Hotmeal.pass2Global TA (withPos TB f) cfg V.forget a bs best := by
  induction bs with
  | nil => intro _ best; rfl
  | cons b bs ih =>
    intro hbs best
    have ih := ih fun b' hb' => hbs b' (List.mem_cons_of_mem _ hb')
    have hsim := hag.sim a hia b (.inl (hbs b List.mem_cons_self))
    have e : (withPos TB f).childCount b = TB.childCount b := rfl
    rw [pass2Global, Hotmeal.pass2Global]
    simp only [← VMatching.containsB_eq, ← ancestryCompatible_eq (f := f), e, ih, hsim]

theorem yields_pass2Step {k : HKind → Option (List Nat)} {k' : HKind → List Nat}
    (hk : ∀ x, (k x).getD [] = k' x) (hki : ∀ x, ∀ b ∈ k' x, b ∈ TB.iter) {o o' : List Nat}
    (ho : ∀ x, x ∈ o ↔ x ∈ o') (V : VMatching) {a : Nat} (hia : a ∈ TA.iter) :
    Yields (Right TA TB f) (pass2Step sc pos TA TB o k V a)
    (fun W => W.forget = Hotmeal.pass2Step TA (withPos TB f) cfg o' k' V.forget a) := by
  unfold pass2Step Hotmeal.pass2Step
  simp only [← VMatching.containsA_eq, ho, hk]
  split
  · exact .pure rfl
  · split
    · exact .pure rfl
    · have e : (TA.parent a).bind V.getB = (TA.parent a).bind V.forget.getB := rfl
      rw [e]
      cases (TA.parent a).bind V.forget.getB with
      | none =>
        simp only
        rw [pass2Global_eq (f := f) hag V hia _ (hki _)]
        cases Hotmeal.pass2Global TA (withPos TB f) cfg V.forget a (k' (TA.kind a)) none with
        | some b => exact .pure (VMatching.forget_add ..)
        | none => exact .pure rfl
      | some pb =>
        refine (yields_pass2Local hag hpos V hia pb).bind ?_
        rintro best rfl
        simp only
        cases Hotmeal.pass2Local TA (withPos TB f) cfg V.forget a pb with
        | some b => exact .pure (VMatching.forget_add ..)
        | none => exact .pure rfl

omit hag hpos in
theorem yields_loopM {Inv : Caches → Prop} {s : VMatching → Nat → StateM Caches VMatching}
    {s' : Matching → Nat → Matching} (l : List Nat)
    (h : ∀ V, ∀ a ∈ l, Yields Inv (s V a) fun W => W.forget = s' V.forget a) :
    ∀ V, Yields Inv (loopM s l V) fun W => W.forget = l.foldl s' V.forget := by
  induction l with
  | nil => intro V; exact .pure rfl
  | cons a l ih =>
    intro V
    have ih := ih fun V a ha => h V a (List.mem_cons_of_mem _ ha)
    rw [loopM, List.foldl_cons]
    refine (h V a List.mem_cons_self).bind ?_
    intro W hW
    rw [← hW]
    exact ih W

theorem yields_computeMatching (horder : ∀ l, (order l).Perm l) (hA : ∀ n, (TA.descendants n).Nodup)
    (hB : ∀ n, (TB.descendants n).Nodup) : Yields (Right TA TB f) (computeMatching sc order pos TA TB cfg)
    (fun W => W.forget = Hotmeal.computeMatching TA (withPos TB f) cfg) := by
  unfold computeMatching bottomUp Hotmeal.computeMatching Hotmeal.bottomUp
  intro c hc
  have h0 : Right TA TB f { c with descA := fun _ => none, descB := fun _ => none } :=
    ⟨(fun _ _ h => by cases h), (fun _ _ h => by cases h), hc.position⟩
  have hk : ∀ x, (byKind TB (topDown TA TB cfg VMatching.empty) (opaqueSet TB) x).getD [] =
      bByKind (withPos TB f) (Hotmeal.topDown TA (withPos TB f) cfg Matching.empty)
        (opaqueDescendants (withPos TB f)) x := by
    intro x
    rw [byKind_eq (f := f) (o' := opaqueDescendants (withPos TB f)) _ (mem_opaqueSet TB), forget_topDown (f := f),
      VMatching.forget_empty]
  have hki : ∀ x, ∀ b ∈ bByKind (withPos TB f) (Hotmeal.topDown TA (withPos TB f) cfg Matching.empty)
        (opaqueDescendants (withPos TB f)) x, b ∈ TB.iter := fun x b hb => (List.mem_filter.1 hb).1
  have h1 := yields_loopM TA.iter
    (fun V a ha => yields_pass1Step hag hpos horder hA hB hk hki (mem_opaqueSet TA) V ha)
    (topDown TA TB cfg VMatching.empty)
  have h2 : Yields (Right TA TB f) _ _ := h1.bind fun V hV =>
    yields_loopM TA.iter (fun V a ha => yields_pass2Step hag hpos hk hki (mem_opaqueSet TA) V ha) V |> fun h => by
      rw [hV, forget_topDown (f := f), VMatching.forget_empty] at h
      exact h
  exact h2 _ h0

/-! ## Edit script -/

omit hag hpos in
theorem yields_collectM {α : Type} {Inv : Caches → Prop} {s : α → StateM Caches (List EditOp)} {g : α → List EditOp}
    (l : List α) (h : ∀ x ∈ l, Yields Inv (s x) (· = g x)) : Yields Inv (collectM s l) (· = l.flatMap g) := by
  induction l with
  | nil => exact .pure rfl
  | cons x l ih =>
    rw [collectM]
    refine (h x List.mem_cons_self).bind ?_
    rintro r rfl
    refine (ih fun y hy => h y (List.mem_cons_of_mem _ hy)).bind ?_
    rintro r rfl
    exact .pure rfl

omit hag in
theorem yields_script (V : VMatching) : Yields (Right TA TB f) (generateEditScript pos TA TB V)
    (· = Hotmeal.generateEditScript TA (withPos TB f) V.forget) := by
  have ha := mem_opaqueSet TA
  have hb := mem_opaqueSet TB
  unfold generateEditScript Hotmeal.generateEditScript
  refine (yields_collectM (g := fun b => if V.forget.containsB b then []
    else match TB.parent b with
      | none => []
      | some pb => if b ∈ opaqueDescendants TB then [] else [.insert b pb (f b) (TB.kind b)]) TB.iter ?_).bind ?_
  · intro b _
    unfold insertOp
    rw [← VMatching.containsB_eq]
    split
    · exact .pure rfl
    · cases TB.parent b with
      | none => exact .pure rfl
      | some pb =>
        simp only [hb]
        split
        · exact .pure rfl
        · refine (hpos b).bind ?_
          rintro p rfl
          exact .pure rfl
  · rintro r rfl
    refine (yields_collectM (g := Hotmeal.moveOp TA (withPos TB f) V.forget (opaqueDescendants TA)
      (opaqueDescendants TB)) V.pairs ?_).bind ?_
    · intro p _
      unfold moveOp Hotmeal.moveOp
      simp only [ha, hb]
      split
      · exact .pure rfl
      · cases TA.parent p.1 with
        | none => exact .pure rfl
        | some pa =>
          cases TB.parent p.2 with
          | none => exact .pure rfl
          | some pb =>
            refine (hpos p.2).bind ?_
            rintro q rfl
            rw [VMatching.getB_eq]
            simp only
            split
            · exact .pure rfl
            · split
              · exact .pure rfl
              · exact .pure rfl
    · rintro r rfl
      refine .pure ?_
      have h1 : updateOps TA TB V (opaqueSet TA) (opaqueSet TB) = Hotmeal.updateOps TA (withPos TB f) V.forget
          (opaqueDescendants TA) (opaqueDescendants (withPos TB f)) := by
        simp only [updateOps, ha, hb]; rfl
      have h2 : deleteOps TA V (opaqueSet TA) = Hotmeal.deleteOps TA V.forget (opaqueDescendants TA) := by
        simp only [deleteOps, ha, VMatching.containsA_eq]; rfl
      rw [h1, h2]
      rfl

omit hag in
theorem yields_matchAndScript (hag : Agrees sc Config.diff rel TA TB) (horder : ∀ l, (order l).Perm l) (hA : ∀ n, (TA.descendants n).Nodup)
    (hB : ∀ n, (TB.descendants n).Nodup) : Yields (Right TA TB f) (matchAndScript sc order pos TA TB) fun r =>
    r.1.forget = diffMatching TA (withPos TB f) ∧
    r.2 = Hotmeal.generateEditScript TA (withPos TB f) (diffMatching TA (withPos TB f)) := by
  unfold matchAndScript
  refine (yields_computeMatching hag hpos horder hA hB).bind ?_
  intro V hV
  have h1 : (if TA.kind TA.root = TB.kind TB.root ∧ ¬ V.containsA TA.root then V.add TA.root TB.root else V).forget =
      diffMatching TA (withPos TB f) := by
    unfold diffMatching forceRoots
    rw [← hV, ← VMatching.containsA_eq]
    split
    · exact VMatching.forget_add ..
    · rfl
  generalize (if TA.kind TA.root = TB.kind TB.root ∧ ¬ V.containsA TA.root then V.add TA.root TB.root else V) = W at h1 ⊢
  refine (yields_script hpos W).bind ?_
  rintro ops rfl
  exact .pure ⟨h1, by rw [h1]⟩

end

end Tables
end Hotmeal
