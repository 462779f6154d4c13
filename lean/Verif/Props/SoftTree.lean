import Verif.Spec.SoftTree
import Verif.Lemmas.Basic
import Verif.Props.InstanceList
import Verif.Props.NetTrain

/-! # C79, C120, C121: soft decision trees -/

set_option linter.unusedSectionVars false
set_option linter.unusedVariables false

namespace Verif
open Dbl

variable {F : Type} [Dbl F]

/-! ## evaluation without failures -/

/-- weight of the first child -/
def gateF (w u : List F) : F :=
  sigmoidF ((List.zipWith (fun a b => a *. b) (biased u) w).foldl (fun s p => s +. p) Dbl.zero)

/-- output of a tree -/
def softOut (u : List F) : SoftNode F → List F
  | .leaf e => e.w0s
  | .split e l r => (List.range e.outputs.length).map (fun (i : Nat) =>
      (gateF e.w u *. (softOut u l).getD i Dbl.zero) +. ((Dbl.one -. gateF e.w u) *. (softOut u r).getD i Dbl.zero))

/-- the tree after an evaluation -/
def mark (u : List F) : SoftNode F → SoftNode F
  | .leaf e => .leaf e
  | .split e l r => .split { e with outputs := softOut u (.split e l r) } ((mark u l).setWeight (gateF e.w u))
      ((mark u r).setWeight (Dbl.one -. gateF e.w u))

theorem toVector_numbers (x : Inst F) (u : List F) (hx : x.attrs = u.map Attr.continuous) : x.toVector = .ok u := by
  unfold Inst.toVector
  have : ∀ (vs r : List F), (vs.map (Attr.continuous)).foldlM (fun r a => do
      let inserted ← a.continuousAttributes
      (pure (r ++ inserted) : Res (List F))) r = .ok (r ++ vs) := by
    intro vs
    induction vs with
    | nil => intro r; simp
    | cons a vs ih =>
      intro r
      rw [List.map_cons, List.foldlM_cons]
      have := ih (r ++ [a])
      simp only [Attr.continuousAttributes, res_bind_ok, res_pure] at this ⊢
      rw [this]; simp
  have := this u []
  rw [hx]
  simpa using this

theorem sized_setWeight {K d : Nat} {t : SoftNode F} (v : F) (h : t.Sized K d) : (t.setWeight v).Sized K d := by
  cases t <;> exact h

theorem sized_setW0s {K d : Nat} {t : SoftNode F} (v : List F) (hv : v.length = K) (h : t.Sized K d) :
    (t.setW0s v).Sized K d := by
  cases t with
  | leaf e => exact ⟨hv, h.2⟩
  | split e l r => exact ⟨⟨hv, h.1.2⟩, h.2⟩

theorem sized_data {K d : Nat} {t : SoftNode F} (h : t.Sized K d) : t.data.Sized K d := by
  cases t with
  | leaf e => exact h
  | split e l r => exact h.1

theorem idxR_getD {l : List F} {i : Nat} (h : i < l.length) : idxR l i = .ok (l.getD i Dbl.zero) := by
  rw [idxR_ok_of_lt h]
  simp [h]

theorem softOut_length {K d : Nat} {u : List F} {t : SoftNode F} (h : t.Sized K d) : (softOut u t).length = K := by
  cases t with
  | leaf e => exact h.1
  | split e l r => simp [softOut, h.1.2.1]

theorem mark_sized {K d : Nat} (u : List F) : ∀ {t : SoftNode F}, t.Sized K d → (mark u t).Sized K d
  | .leaf _, h => h
  | .split e l r, h => ⟨⟨h.1.1, softOut_length (t := .split e l r) h, h.1.2.2⟩, sized_setWeight _ (mark_sized u h.2.1),
      sized_setWeight _ (mark_sized u h.2.2)⟩

theorem calcOutput_ok {K d : Nat} {x : Inst F} {u : List F} (hx : NumbersAre x u d) : ∀ {t : SoftNode F}, t.Sized K d →
    calcOutput x t = .ok (softOut u t, mark u t)
  | .leaf _, _ => rfl
  | .split e l r, h => by
    have hl := calcOutput_ok hx h.2.1
    have hr := calcOutput_ok hx h.2.2
    have hdot : dotProduct (biased u) e.w =
        .ok ((List.zipWith (fun a b => a *. b) (biased u) e.w).foldl (fun s p => s +. p) Dbl.zero) := by
      unfold dotProduct
      rw [if_neg]
      simp only [biased, List.length_cons, ne_eq, not_not]
      rw [hx.1, h.1.2.2]
    simp only [calcOutput, toVector_numbers x u hx.2, hdot, hl, hr, res_bind_ok]
    rw [mapM_ok (g := fun (i : Nat) => (gateF e.w u *. (softOut u l).getD i Dbl.zero) +.
      ((Dbl.one -. gateF e.w u) *. (softOut u r).getD i Dbl.zero)) (by
        intro i hi
        have hi' : i < K := by rw [← h.1.2.1]; simpa using hi
        unfold mixStep
        rw [idxR_getD (by rw [softOut_length h.2.1]; exact hi'), idxR_getD (by rw [softOut_length h.2.2]; exact hi')]
        rfl)]
    rfl

/-! ## what the output depends on -/

/-- the numbers that decide the output: the vectors of the leaves and the weights of the splits -/
inductive Skel (F : Type) where
  | leaf (w0s : List F)
  | split (w : List F) (l r : Skel F)

def SoftNode.skel : SoftNode F → Skel F
  | .leaf e => .leaf e.w0s
  | .split e l r => .split e.w l.skel r.skel

theorem skel_setWeight (v : F) (t : SoftNode F) : (t.setWeight v).skel = t.skel := by cases t <;> rfl

theorem skel_mark (u : List F) : ∀ t : SoftNode F, (mark u t).skel = t.skel
  | .leaf _ => rfl
  | .split e l r => by simp only [mark, SoftNode.skel, skel_setWeight, skel_mark u l, skel_mark u r]

theorem softOut_skel {K d : Nat} (u : List F) : ∀ {t t' : SoftNode F}, t.Sized K d → t'.Sized K d → t.skel = t'.skel →
    softOut u t = softOut u t'
  | .leaf _, .leaf _, _, _, h => by simpa [SoftNode.skel, softOut] using h
  | .leaf _, .split _ _ _, _, _, h => by simp [SoftNode.skel] at h
  | .split _ _ _, .leaf _, _, _, h => by simp [SoftNode.skel] at h
  | .split e l r, .split e' l' r', s, s', h => by
    simp only [SoftNode.skel, Skel.split.injEq] at h
    simp only [softOut, h.1, s.1.2.1, s'.1.2.1, softOut_skel u s.2.1 s'.2.1 h.2.1, softOut_skel u s.2.2 s'.2.2 h.2.2]

/-! ## errors -/

theorem maxIndex_lt {y : List F} (hne : y ≠ []) : ∃ i, maxIndex y = .ok i ∧ i < y.length := by
  obtain ⟨a, l, rfl⟩ := List.exists_cons_of_ne_nil hne
  refine ⟨_, rfl, ?_⟩
  have : ∀ (m : List (F × Nat)) (b : Nat × F), b.1 < (a :: l).length → (∀ p ∈ m, p.2 < (a :: l).length) →
      (m.foldl (fun (b : Nat × F) p => if b.2 <. p.1 then (p.2, p.1) else b) b).1 < (a :: l).length := by
    intro m
    induction m with
    | nil => intro b hb _; exact hb
    | cons p m ih =>
      intro b hb hm
      rw [List.foldl_cons]
      refine ih _ ?_ (fun q hq => hm q (by simp [hq]))
      split
      · exact hm p (by simp)
      · exact hb
  refine this _ _ (by simp) ?_
  intro p hp
  have := List.snd_lt_add_of_mem_zipIdx hp
  simp only [List.length_cons]
  omega

theorem getD_idxOf {labels : List String} (hn : labels.Nodup) {c : String} (hc : c ∈ labels) {i : Nat} (hi : i < labels.length) :
    labels.getD i "" = c ↔ i = labels.idxOf c := by
  have h1 : labels.getD i "" = labels[i] := by simp [hi]
  have h2 : labels.idxOf c < labels.length := List.idxOf_lt_length_iff.2 hc
  rw [h1]
  constructor
  · intro h
    subst h
    exact (hn.idxOf_getElem i hi).symm
  · rintro rfl
    exact List.getElem_idxOf h2

/-- what training needs: labels, dimension and lists of instances that go together -/
structure SoftSetting (labels : List String) (d : Nat) (l : IList F) : Prop where
  nodup : labels.Nodup
  ne : labels ≠ []
  numbers : ∀ x ∈ l, AllNumbers d x
  label : ∀ x ∈ l, x.label ∈ labels

theorem softPredict_ok {labels : List String} {d : Nat} (hne : labels ≠ []) {t : SoftNode F} (ht : t.Sized labels.length d)
    {x : Inst F} {u : List F} (hx : NumbersAre x u d) :
    ∃ i, maxIndex (softOut u t) = .ok i ∧ i < labels.length ∧ softPredict ⟨labels, t⟩ x = .ok (labels.getD i "") := by
  have hl := softOut_length (u := u) ht
  obtain ⟨i, h1, h2⟩ := maxIndex_lt (y := softOut u t) (by
    intro h
    rw [h] at hl
    exact hne (List.length_eq_zero_iff.1 hl.symm))
  refine ⟨i, h1, by rw [← hl]; exact h2, ?_⟩
  unfold softPredict
  simp only [calcOutput_ok hx ht, res_bind_ok, h1]
  rfl

theorem softPredict_skel {labels : List String} {d : Nat} {t t' : SoftNode F} (ht : t.Sized labels.length d)
    (ht' : t'.Sized labels.length d) (h : t.skel = t'.skel) {x : Inst F} (hx : AllNumbers d x) :
    softPredict ⟨labels, t⟩ x = softPredict ⟨labels, t'⟩ x := by
  obtain ⟨u, hu⟩ := hx
  unfold softPredict
  simp only [calcOutput_ok hu ht, calcOutput_ok hu ht', res_bind_ok, softOut_skel u ht ht' h]

theorem wrong_skel {labels : List String} {d : Nat} {l : IList F} (hs : SoftSetting labels d l) {t t' : SoftNode F}
    (ht : t.Sized labels.length d) (ht' : t'.Sized labels.length d) (h : t.skel = t'.skel) :
    wrongPredictions labels t l = wrongPredictions labels t' l := by
  unfold wrongPredictions
  refine List.countP_congr ?_
  intro x hx
  rw [softPredict_skel ht ht' h (hs.numbers x hx)]

theorem softErrors_ok {labels : List String} {d : Nat} {l : IList F} (hs : SoftSetting labels d l) {t : SoftNode F}
    (ht : t.Sized labels.length d) :
    ∃ t', softErrors labels l t = .ok (wrongPredictions labels t l, t') ∧ t'.Sized labels.length d ∧ t'.skel = t.skel := by
  unfold softErrors
  have key : ∀ (l : IList F), (∀ x ∈ l, AllNumbers d x ∧ x.label ∈ labels) → ∀ (n : Nat) (t : SoftNode F),
      t.Sized labels.length d → ∃ t', l.foldlM (softErrorStep labels) (n, t) = .ok (n + wrongPredictions labels t l, t') ∧
        t'.Sized labels.length d ∧ t'.skel = t.skel := by
    intro l
    induction l with
    | nil => intro _ n t ht; exact ⟨t, rfl, ht, rfl⟩
    | cons x l ih =>
      intro hl n t ht
      obtain ⟨⟨u, hu⟩, hc⟩ := hl x (by simp)
      obtain ⟨i, h1, h2, h3⟩ := softPredict_ok hs.ne ht hu
      have hstep : softErrorStep labels (n, t) x =
          .ok (if i ≠ labels.idxOf x.label then n + 1 else n, mark u t) := by
        unfold softErrorStep classIndex
        simp only [if_pos hc, res_pure, res_bind_ok, calcOutput_ok hu ht, h1]
      obtain ⟨t', e1, e2, e3⟩ := ih (fun y hy => hl y (by simp [hy])) (if i ≠ labels.idxOf x.label then n + 1 else n) (mark u t)
        (mark_sized u ht)
      refine ⟨t', ?_, e2, by rw [e3, skel_mark]⟩
      rw [List.foldlM_cons, hstep, res_bind_ok, e1]
      have hw : wrongPredictions labels (mark u t) l = wrongPredictions labels t l :=
        wrong_skel ⟨hs.nodup, hs.ne, fun y hy => (hl y (by simp [hy])).1, fun y hy => (hl y (by simp [hy])).2⟩
          (mark_sized u ht) ht (skel_mark u t)
      rw [hw]
      have : wrongPredictions labels t (x :: l) = (if i ≠ labels.idxOf x.label then 1 else 0) + wrongPredictions labels t l := by
        unfold wrongPredictions
        rw [List.countP_cons, h3, Nat.add_comm]
        congr 1
        have := getD_idxOf hs.nodup hc h2
        by_cases hi : i = labels.idxOf x.label
        · rw [this.2 hi]
          simp [hi]
        · rw [if_pos hi, if_pos]
          simp only [ne_eq, Except.ok.injEq, decide_not, Bool.not_eq_eq_eq_not, Bool.not_true, decide_eq_false_iff_not]
          exact fun h => hi (this.1 h)
      rw [this]
      congr 2
      split <;> omega
  obtain ⟨t', h1, h2⟩ := key l (fun x hx => ⟨hs.numbers x hx, hs.label x hx⟩) 0 t ht
  exact ⟨t', by rw [h1, Nat.zero_add], h2⟩

/-! ## a node inside a tree -/

def Skel.get : Skel F → List Bool → Option (Skel F)
  | n, [] => some n
  | .leaf _, _ :: _ => none
  | .split _ l _, false :: p => l.get p
  | .split _ _ r, true :: p => r.get p

def Skel.put : Skel F → List Bool → Skel F → Skel F
  | _, [], m => m
  | .leaf a, _ :: _, _ => .leaf a
  | .split w l r, false :: p, m => .split w (l.put p m) r
  | .split w l r, true :: p, m => .split w l (r.put p m)

def Skel.splits : Skel F → Nat
  | .leaf _ => 0
  | .split _ l r => l.splits + r.splits + 1

theorem skel_splits : ∀ t : SoftNode F, t.skel.splits = t.splits
  | .leaf _ => rfl
  | .split _ l r => by simp only [SoftNode.skel, Skel.splits, SoftNode.splits, skel_splits l, skel_splits r]

theorem skel_put : ∀ (t : SoftNode F) (p : List Bool) (m : SoftNode F), (t.put p m).skel = t.skel.put p m.skel
  | .leaf _, [], _ => rfl
  | .split _ _ _, [], _ => rfl
  | .leaf _, _ :: _, _ => rfl
  | .split e l r, false :: p, m => by simp only [SoftNode.put, SoftNode.skel, Skel.put, skel_put l p m]
  | .split e l r, true :: p, m => by simp only [SoftNode.put, SoftNode.skel, Skel.put, skel_put r p m]

theorem at_of_get : ∀ (t : SoftNode F) (p : List Bool) (k : Skel F), t.skel.get p = some k →
    ∃ n ws, t.at p = .ok (n, ws) ∧ n.skel = k
  | .leaf e, [], k, h => ⟨_, [], rfl, by simpa [SoftNode.skel, Skel.get] using h⟩
  | .split e l r, [], k, h => ⟨_, [], rfl, by simpa [SoftNode.skel, Skel.get] using h⟩
  | .leaf e, _ :: _, k, h => by simp [SoftNode.skel, Skel.get] at h
  | .split e l r, false :: p, k, h => by
    obtain ⟨n, ws, h1, h2⟩ := at_of_get l p k (by simpa [SoftNode.skel, Skel.get] using h)
    exact ⟨n, ws ++ [l.data.weight], by simp only [SoftNode.at, h1, res_bind_ok]; rfl, h2⟩
  | .split e l r, true :: p, k, h => by
    obtain ⟨n, ws, h1, h2⟩ := at_of_get r p k (by simpa [SoftNode.skel, Skel.get] using h)
    exact ⟨n, ws ++ [r.data.weight], by simp only [SoftNode.at, h1, res_bind_ok]; rfl, h2⟩

theorem at_sized {K d : Nat} : ∀ (t : SoftNode F) (p : List Bool) (n : SoftNode F) (ws : List F), t.at p = .ok (n, ws) →
    t.Sized K d → n.Sized K d
  | .leaf e, [], n, ws, h, hs => by cases h; exact hs
  | .split e l r, [], n, ws, h, hs => by cases h; exact hs
  | .leaf e, _ :: _, n, ws, h, _ => by cases h
  | .split e l r, false :: p, n, ws, h, hs => by
    simp only [SoftNode.at, bind_ok_iff] at h
    obtain ⟨⟨n', ws'⟩, h1, h2⟩ := h
    cases h2
    exact at_sized l p n' ws' h1 hs.2.1
  | .split e l r, true :: p, n, ws, h, hs => by
    simp only [SoftNode.at, bind_ok_iff] at h
    obtain ⟨⟨n', ws'⟩, h1, h2⟩ := h
    cases h2
    exact at_sized r p n' ws' h1 hs.2.2

theorem put_sized {K d : Nat} : ∀ (t : SoftNode F) (p : List Bool) (m : SoftNode F), t.Sized K d → m.Sized K d →
    (t.put p m).Sized K d
  | .leaf e, [], m, _, hm => hm
  | .split e l r, [], m, _, hm => hm
  | .leaf e, _ :: _, m, ht, _ => ht
  | .split e l r, false :: p, m, ht, hm => ⟨ht.1, put_sized l p m ht.2.1 hm, ht.2.2⟩
  | .split e l r, true :: p, m, ht, hm => ⟨ht.1, ht.2.1, put_sized r p m ht.2.2 hm⟩

namespace Skel

theorem put_put : ∀ (t : Skel F) (p : List Bool) (a b : Skel F), (t.put p a).put p b = t.put p b
  | .leaf _, [], a, b => by cases a <;> rfl
  | .split _ _ _, [], a, b => by cases a <;> rfl
  | .leaf _, _ :: _, _, _ => rfl
  | .split w l r, false :: p, a, b => by simp only [Skel.put, put_put l p a b]
  | .split w l r, true :: p, a, b => by simp only [Skel.put, put_put r p a b]

theorem get_put : ∀ (t : Skel F) (p : List Bool) (k m : Skel F), t.get p = some k → (t.put p m).get p = some m
  | .leaf _, [], _, m, _ => by cases m <;> rfl
  | .split _ _ _, [], _, m, _ => by cases m <;> rfl
  | .leaf _, _ :: _, _, _, h => by simp [Skel.get] at h
  | .split w l r, false :: p, k, m, h => by
    simp only [Skel.get, Skel.put] at h ⊢
    exact get_put l p k m h
  | .split w l r, true :: p, k, m, h => by
    simp only [Skel.get, Skel.put] at h ⊢
    exact get_put r p k m h

theorem put_get : ∀ (t : Skel F) (p : List Bool) (k : Skel F), t.get p = some k → t.put p k = t
  | .leaf _, [], _, h => by simpa [Skel.get, Skel.put] using h.symm
  | .split _ _ _, [], _, h => by simpa [Skel.get, Skel.put] using h.symm
  | .leaf _, _ :: _, _, h => by simp [Skel.get] at h
  | .split w l r, false :: p, k, h => by
    simp only [Skel.get, Skel.put] at h ⊢
    rw [put_get l p k h]
  | .split w l r, true :: p, k, h => by
    simp only [Skel.get, Skel.put] at h ⊢
    rw [put_get r p k h]

theorem get_child (b : Bool) : ∀ (t : Skel F) (p : List Bool) (w : List F) (l r : Skel F), t.get p = some (.split w l r) →
    t.get (p ++ [b]) = some (if b then r else l)
  | .leaf _, [], _, _, _, h => by simp [Skel.get] at h
  | .split _ _ _, [], _, _, _, h => by
    simp only [Skel.get, Option.some.injEq, Skel.split.injEq] at h
    obtain ⟨_, rfl, rfl⟩ := h
    cases b <;> simp [Skel.get]
  | .leaf _, _ :: _, _, _, _, h => by simp [Skel.get] at h
  | .split _ l _, false :: p, w, l', r', h => by
    simp only [Skel.get] at h
    simpa [Skel.get] using get_child b l p w l' r' h
  | .split _ _ r, true :: p, w, l', r', h => by
    simp only [Skel.get] at h
    simpa [Skel.get] using get_child b r p w l' r' h

theorem put_child (b : Bool) (m : Skel F) : ∀ (t : Skel F) (p : List Bool) (w : List F) (l r : Skel F),
    t.get p = some (.split w l r) → t.put (p ++ [b]) m = t.put p (if b then .split w l m else .split w m r)
  | .leaf _, [], _, _, _, h => by simp [Skel.get] at h
  | .split _ _ _, [], _, _, _, h => by
    simp only [Skel.get, Option.some.injEq, Skel.split.injEq] at h
    obtain ⟨rfl, rfl, rfl⟩ := h
    cases b <;> simp [Skel.put]
  | .leaf _, _ :: _, _, _, _, h => by simp [Skel.get] at h
  | .split _ l _, false :: p, w, l', r', h => by
    simp only [Skel.get] at h
    simpa [Skel.put] using put_child b m l p w l' r' h
  | .split _ _ r, true :: p, w, l', r', h => by
    simp only [Skel.get] at h
    simpa [Skel.put] using put_child b m r p w l' r' h

theorem splits_put : ∀ (t : Skel F) (p : List Bool) (k m : Skel F), t.get p = some k →
    (t.put p m).splits + k.splits = t.splits + m.splits
  | .leaf _, [], k, m, h => by
    simp only [Skel.get, Option.some.injEq] at h
    subst h
    simp only [Skel.put]; omega
  | .split _ _ _, [], k, m, h => by
    simp only [Skel.get, Option.some.injEq] at h
    subst h
    simp only [Skel.put]; omega
  | .leaf _, _ :: _, _, _, h => by simp [Skel.get] at h
  | .split w l r, false :: p, k, m, h => by
    simp only [Skel.get, Skel.put, Skel.splits] at h ⊢
    have := splits_put l p k m h
    omega
  | .split w l r, true :: p, k, m, h => by
    simp only [Skel.get, Skel.put, Skel.splits] at h ⊢
    have := splits_put r p k m h
    omega

end Skel

/-! ## gradient descent changes one node and its two leaves -/

theorem momentum_ok (alpha : F) {n : Nat} {old update prev : List F} (h1 : old.length = n) (h2 : update.length = n)
    (h3 : prev.length = n) : momentum alpha n old update prev = .ok ((List.range n).map (fun (k : Nat) =>
      old.getD k Dbl.zero +. (update.getD k Dbl.zero +. (alpha *. prev.getD k Dbl.zero)))) := by
  unfold momentum
  rw [mapM_ok (g := fun (k : Nat) => old.getD k Dbl.zero +. (update.getD k Dbl.zero +. (alpha *. prev.getD k Dbl.zero))) (by
    intro k hk
    have hk' : k < n := by simpa using hk
    unfold momentumStep
    rw [idxR_getD (by omega), idxR_getD (by omega), idxR_getD (by omega)]
    rfl)]
  simp only [res_bind_ok]
  rw [List.drop_eq_nil_of_le (by omega), List.append_nil]
  rfl

/-- `kroneckerDelta(r, k) - output[k]` -/
def deltaF (r : Nat) (out : List F) (k : Nat) : F := (if r = k then Dbl.one else Dbl.zero) -. out.getD k Dbl.zero

theorem softDelta_ok {r : Nat} {out : List F} {k : Nat} (h : k < out.length) : softDelta r out k = .ok (deltaF r out k) := by
  unfold softDelta
  rw [idxR_getD h]
  rfl

theorem leafUpdates_ok (m : F) (r : Nat) (out : List F) (weight : F) (n : Nat) (h : out.length = n) :
    (List.range n).mapM (leafUpdate m r out weight) = .ok ((List.range n).map (fun k => (m *. deltaF r out k) *. weight)) := by
  refine mapM_ok ?_
  intro k hk
  unfold leafUpdate
  rw [softDelta_ok (by rw [h]; simpa using hk)]
  rfl

/-- bias or attribute `t` -/
def featureF (u : List F) (t : Nat) : F := (biased u).getD t Dbl.zero

theorem softFeature_ok {x : Inst F} {u : List F} {d t : Nat} (hx : NumbersAre x u d) (ht : t < d + 1) :
    softFeature x t = .ok (featureF u t) := by
  unfold softFeature featureF
  cases t with
  | zero => rfl
  | succ t =>
    rw [if_neg (by omega)]
    have h : t < u.length := by rw [hx.1]; omega
    refine contAt_ok ?_
    show x.attrs[t]? = _
    rw [hx.2]
    simp [biased, h]

/-- change of component `t` of the weights of the split -/
def splitF (m : F) (K r : Nat) (out u : List F) (l rt : SoftData F) (t : Nat) : F :=
  (List.range K).foldl (fun sum k => sum +. (((((m *. deltaF r out k) *. featureF u t) *.
    (l.outputs.getD k Dbl.zero -. rt.outputs.getD k Dbl.zero)) *. l.weight) *. rt.weight)) Dbl.zero

theorem splitUpdate_ok {x : Inst F} {u : List F} {d K : Nat} (hx : NumbersAre x u d) (m : F) (r : Nat) (out : List F)
    (hout : out.length = K) (l rt : SoftData F) (hl : l.outputs.length = K) (hr : rt.outputs.length = K) {t : Nat} (ht : t < d + 1) :
    splitUpdate m K r out x l rt t = .ok (splitF m K r out u l rt t) := by
  unfold splitUpdate
  rw [softFeature_ok hx ht, res_bind_ok]
  refine foldlM_ok ?_ _
  intro k hk s
  have hk' : k < K := by simpa using hk
  unfold splitDelta
  rw [softDelta_ok (by omega), idxR_getD (by omega), idxR_getD (by omega)]
  rfl

/-- sizes of the remembered updates -/
def SoftPrev.Sized (K d : Nat) (p : SoftPrev F) : Prop := p.left.length = K ∧ p.right.length = K ∧ p.w.length = d + 1

/-- the updated vector -/
def moved (alpha : F) (n : Nat) (old update prev : List F) : List F := (List.range n).map (fun (k : Nat) =>
  old.getD k Dbl.zero +. (update.getD k Dbl.zero +. (alpha *. prev.getD k Dbl.zero)))

theorem softUpdate_ok {labels : List String} {x : Inst F} {u : List F} {d : Nat} (hx : NumbersAre x u d) (alpha m : F) (r : Nat)
    (out : List F) (hout : out.length = labels.length) (prev : SoftPrev F) (hp : prev.Sized labels.length d)
    (e : SoftData F) (l rt : SoftNode F) (hs : (SoftNode.split e l rt).Sized labels.length d) :
    ∃ ul ur uw, ul = (List.range labels.length).map (fun k => (m *. deltaF r out k) *. l.data.weight) ∧
      ur = (List.range labels.length).map (fun k => (m *. deltaF r out k) *. rt.data.weight) ∧
      uw = (List.range (d + 1)).map (splitF m labels.length r out u l.data rt.data) ∧
      softUpdate labels alpha m r out x prev (.split e l rt) = .ok (.split { e with w := moved alpha (d + 1) e.w uw prev.w }
        (l.setW0s (moved alpha labels.length l.data.w0s ul prev.left))
        (rt.setW0s (moved alpha labels.length rt.data.w0s ur prev.right)), ⟨ul, ur, uw⟩) := by
  refine ⟨_, _, _, rfl, rfl, rfl, ?_⟩
  have hl := sized_data hs.2.1
  have hr := sized_data hs.2.2
  have hd : x.attrs.length = d := by rw [hx.2, List.length_map, hx.1]
  simp only [softUpdate]
  rw [leafUpdates_ok m r out _ _ hout, res_bind_ok, leafUpdates_ok m r out _ _ hout, res_bind_ok]
  rw [momentum_ok alpha hl.1 (by simp) hp.1, res_bind_ok, momentum_ok alpha hr.1 (by simp) hp.2.1, res_bind_ok, hd]
  rw [mapM_ok (g := splitF m labels.length r out u l.data rt.data) (by
    intro t ht
    exact splitUpdate_ok hx m r out hout _ _ hl.2.1 hr.2.1 (by simpa using ht)), res_bind_ok]
  rw [momentum_ok alpha hs.1.2.2 (by simp) hp.2.2]
  rfl

/-- the tree `T` with the node at `p` replaced by a split with two leaves -/
def OneSplit (K d : Nat) (T : Skel F) (p : List Bool) (t : SoftNode F) : Prop :=
  t.Sized K d ∧ ∃ w a b, t.skel = T.put p (.split w (.leaf a) (.leaf b))

theorem OneSplit.at {K d : Nat} {T : Skel F} {p : List Bool} {t : SoftNode F} (h : OneSplit K d T p t) (k : Skel F)
    (hk : T.get p = some k) : ∃ e l r ws, t.at p = .ok (.split e (.leaf l) (.leaf r), ws) ∧
      (SoftNode.split e (.leaf l) (.leaf r)).Sized K d := by
  obtain ⟨h1, w, a, b, h2⟩ := h
  obtain ⟨n, ws, h3, h4⟩ := at_of_get t p _ (by rw [h2]; exact Skel.get_put T p k _ hk)
  have h5 := at_sized t p n ws h3 h1
  cases n with
  | leaf e => simp [SoftNode.skel] at h4
  | split e l r =>
    cases l with
    | split _ _ _ => simp [SoftNode.skel] at h4
    | leaf l =>
      cases r with
      | split _ _ _ => simp [SoftNode.skel] at h4
      | leaf r => exact ⟨e, l, r, ws, h3, h5⟩

theorem OneSplit.put {K d : Nat} {T : Skel F} {p : List Bool} {t : SoftNode F} (h : OneSplit K d T p t)
    {e l r : SoftData F} (hs : (SoftNode.split e (.leaf l) (.leaf r)).Sized K d) :
    OneSplit K d T p (t.put p (.split e (.leaf l) (.leaf r))) := by
  obtain ⟨h1, w, a, b, h2⟩ := h
  refine ⟨put_sized t p _ h1 hs, e.w, l.w0s, r.w0s, ?_⟩
  rw [skel_put, h2, Skel.put_put]
  rfl

theorem normalizeOutput_length (o : List F) : (normalizeOutput o).length = o.length := by
  simp [normalizeOutput]

theorem moved_length (alpha : F) (n : Nat) (a b c : List F) : (moved alpha n a b c).length = n := by simp [moved]

theorem softPresent_ok {labels : List String} {d : Nat} {T k : Skel F} {p : List Bool} (hk : T.get p = some k) (alpha eta : F)
    {t : SoftNode F} (ht : OneSplit labels.length d T p t) {prev : SoftPrev F} (hp : prev.Sized labels.length d)
    {x : Inst F} (hx : AllNumbers d x) (hc : x.label ∈ labels) :
    ∃ t' prev', softPresent labels alpha eta p (t, prev) x = .ok (t', prev') ∧ OneSplit labels.length d T p t' ∧
      prev'.Sized labels.length d := by
  obtain ⟨u, hu⟩ := hx
  have hm : OneSplit labels.length d T p (mark u t) := by
    obtain ⟨h1, w, a, b, h2⟩ := ht
    exact ⟨mark_sized u h1, w, a, b, by rw [skel_mark, h2]⟩
  obtain ⟨e, l, r, ws, h1, h2⟩ := hm.at k hk
  obtain ⟨ul, ur, uw, e1, e2, e3, e4⟩ := softUpdate_ok hu alpha (ws.foldl (fun a b => a *. b) eta) (labels.idxOf x.label)
    (normalizeOutput (softOut u t)) (by rw [normalizeOutput_length, softOut_length ht.1]) prev hp e (.leaf l) (.leaf r) h2
  refine ⟨(mark u t).put p (.split { e with w := moved alpha (d + 1) e.w uw prev.w }
    (.leaf { l with w0s := moved alpha labels.length l.w0s ul prev.left })
    (.leaf { r with w0s := moved alpha labels.length r.w0s ur prev.right })), ⟨ul, ur, uw⟩, ?_, ?_, ?_⟩
  rotate_left
  · refine hm.put (e := { e with w := moved alpha (d + 1) e.w uw prev.w })
      (l := { l with w0s := moved alpha labels.length l.w0s ul prev.left })
      (r := { r with w0s := moved alpha labels.length r.w0s ur prev.right }) ?_
    exact ⟨⟨h2.1.1, h2.1.2.1, moved_length _ _ _ _ _⟩, ⟨moved_length _ _ _ _ _, h2.2.1.2⟩, moved_length _ _ _ _ _, h2.2.2.2⟩
  · exact ⟨by rw [e1]; simp, by rw [e2]; simp, by rw [e3]; simp⟩
  · unfold softPresent classIndex
    simp only [calcOutput_ok hu ht.1, res_bind_ok, if_pos hc, res_pure, h1, e4]
    rfl

/-- the training part and an order of it -/
theorem SoftSetting.perm {labels : List String} {d : Nat} {l l' : IList F} (h : SoftSetting labels d l) (hp : l'.Perm l) :
    SoftSetting labels d l' :=
  ⟨h.nodup, h.ne, fun x hx => h.numbers x (hp.mem_iff.1 hx), fun x hx => h.label x (hp.mem_iff.1 hx)⟩

theorem softPresents_ok {labels : List String} {d : Nat} {T k : Skel F} {p : List Bool} (hk : T.get p = some k) (alpha eta : F) :
    ∀ (l : IList F), SoftSetting labels d l → ∀ {t : SoftNode F}, OneSplit labels.length d T p t → ∀ {prev : SoftPrev F},
    prev.Sized labels.length d → ∃ t' prev', l.foldlM (softPresent labels alpha eta p) (t, prev) = .ok (t', prev') ∧
      OneSplit labels.length d T p t' ∧ prev'.Sized labels.length d := by
  intro l
  induction l with
  | nil => intro _ t ht prev hp; exact ⟨t, prev, rfl, ht, hp⟩
  | cons x l ih =>
    intro hs t ht prev hp
    obtain ⟨t1, p1, h1, h2, h3⟩ := softPresent_ok hk alpha eta ht hp (hs.numbers x (by simp)) (hs.label x (by simp))
    obtain ⟨t2, p2, h4, h5, h6⟩ := ih ⟨hs.nodup, hs.ne, fun y hy => hs.numbers y (by simp [hy]), fun y hy => hs.label y (by simp [hy])⟩ h2 h3
    exact ⟨t2, p2, by rw [List.foldlM_cons, h1, res_bind_ok, h4], h5, h6⟩

theorem softEpochs_ok {labels : List String} {d : Nat} {T k : Skel F} {p : List Bool} (hk : T.get p = some k)
    (param : SoftParam F) (hσ : ∀ n, IsPermutation (param.shuffleOrder n) n) (D : IList F) (hD : SoftSetting labels d D) :
    ∀ (ns : List Nat) (s : SoftDescent F), OneSplit labels.length d T p s.root → s.prev.Sized labels.length d →
      s.data.Perm D → ∃ s', ns.foldlM (fun (s : SoftDescent F) _ => softEpoch labels param p s) s = .ok s' ∧
        OneSplit labels.length d T p s'.root ∧ s'.data.Perm D := by
  intro ns
  induction ns with
  | nil => intro s h1 h2 h3; exact ⟨s, rfl, h1, h3⟩
  | cons n ns ih =>
    intro s h1 h2 h3
    have h4 : (s.data.shuffle (param.shuffleOrder s.data.length)).Perm D := (C15_shuffle_perm s.data _ (hσ _)).trans h3
    obtain ⟨t, pr, h5, h6, h7⟩ := softPresents_ok hk param.alpha s.eta _ (hD.perm h4) h1 h2
    obtain ⟨s', h8, h9⟩ := ih ⟨t, pr, s.eta *. param.etaDecrease, s.data.shuffle (param.shuffleOrder s.data.length)⟩ h6 h7 h4
    refine ⟨s', ?_, h9⟩
    rw [List.foldlM_cons]
    have : softEpoch labels param p s = .ok ⟨t, pr, s.eta *. param.etaDecrease, s.data.shuffle (param.shuffleOrder s.data.length)⟩ := by
      unfold softEpoch
      simp only [h5, res_bind_ok]
      rfl
    rw [this, res_bind_ok, h8]

theorem softDescend_ok {labels : List String} {d : Nat} {T k : Skel F} {p : List Bool} (hk : T.get p = some k)
    (param : SoftParam F) (hσ : ∀ n, IsPermutation (param.shuffleOrder n) n) (eta : F) (D : IList F) (hD : SoftSetting labels d D)
    (hne : D ≠ []) {t : SoftNode F} (ht : OneSplit labels.length d T p t) {data : IList F} (hdata : data.Perm D) :
    ∃ t' data', softDescend labels param p eta t data = .ok (t', data') ∧ OneSplit labels.length d T p t' ∧ data'.Perm D := by
  obtain ⟨x0, l0, rfl⟩ := List.exists_cons_of_ne_nil (show data ≠ [] from fun h => hne (by rw [h] at hdata; exact hdata.symm.eq_nil))
  obtain ⟨u, hu⟩ := hD.numbers x0 (hdata.mem_iff.1 (by simp))
  have hd : x0.attrs.length = d := by rw [hu.2, List.length_map, hu.1]
  obtain ⟨s', h1, h2, h3⟩ := softEpochs_ok hk param hσ D hD (List.range param.epochs)
    ⟨t, ⟨List.replicate labels.length Dbl.zero, List.replicate labels.length Dbl.zero, List.replicate (d + 1) Dbl.zero⟩, eta, x0 :: l0⟩
    ht ⟨by simp, by simp, by simp⟩ hdata
  refine ⟨s'.root, s'.data, ?_, h2, h3⟩
  unfold softDescend IList.get
  simp only [atR_cons_zero, res_bind_ok, hd, h1]
  rfl

/-! ## growing -/

theorem distinct_perm {l l' : IList F} (h : l.Perm l') : l.getDistinctClassLabels.length = l'.getDistinctClassLabels.length := by
  have h1 := C07_distinct_class_labels l
  have h2 := C07_distinct_class_labels l'
  refine ((List.perm_ext_iff_of_nodup h1.nodup h2.nodup).2 ?_).length_eq
  intro c
  rw [h1.mem_iff, h2.mem_iff]
  exact (h.map _).mem_iff

theorem fresh_sized (rand : Nat → F) (pos K d : Nat) : (SoftData.fresh rand pos K d).Sized K d :=
  ⟨by simp [SoftData.fresh], by simp [SoftData.fresh], by simp [SoftData.fresh]⟩

/-- every tree with these deciding numbers makes `n` wrong predictions -/
def MakesErrors (labels : List String) (d : Nat) (cv : IList F) (k : Skel F) (n : Nat) : Prop :=
  ∀ t : SoftNode F, t.Sized labels.length d → t.skel = k → wrongPredictions labels t cv = n

/-- what holds between two learning rates -/
structure TryInv (labels : List String) (d : Nat) (cv D : IList F) (T : Skel F) (p : List Bool) (start : SoftCopy F)
    (s : SoftTry F) : Prop where
  sized : s.root.Sized labels.length d
  root : s.root.skel = T.put p (.split start.w (.leaf start.left) (.leaf start.right))
  data : s.data.Perm D
  best : s.bestErrors = 2147483647 ∨ (s.best.w.length = d + 1 ∧ s.best.left.length = labels.length ∧
    s.best.right.length = labels.length ∧
    MakesErrors labels d cv (T.put p (.split s.best.w (.leaf s.best.left) (.leaf s.best.right))) s.bestErrors)

theorem softTry_ok {labels : List String} {d : Nat} {T k : Skel F} {p : List Bool} (hk : T.get p = some k)
    (param : SoftParam F) (hσ : ∀ n, IsPermutation (param.shuffleOrder n) n) {cv D : IList F} (hcv : SoftSetting labels d cv)
    (hD : SoftSetting labels d D) (hne : D ≠ []) {start : SoftCopy F} (hstart : start.w.length = d + 1 ∧
    start.left.length = labels.length ∧ start.right.length = labels.length) {s : SoftTry F}
    (hs : TryInv labels d cv D T p start s) (i : Nat) :
    ∃ s', softTry labels param cv p start s i = .ok s' ∧ TryInv labels d cv D T p start s' := by
  have h0 : OneSplit labels.length d T p s.root := ⟨hs.sized, _, _, _, hs.root⟩
  obtain ⟨t1, data1, h1, h2, h3⟩ := softDescend_ok hk param hσ (Dbl.lit 10 /. Dbl.ofNat (2 ^ i)) D hD hne h0 hs.data
  obtain ⟨t2, h4, h5, h6⟩ := softErrors_ok hcv h2.1
  have h7 : OneSplit labels.length d T p t2 := by
    obtain ⟨_, w, a, b, h⟩ := h2
    exact ⟨h5, w, a, b, by rw [h6, h]⟩
  obtain ⟨e, l, r, ws, h8, h9⟩ := h7.at k hk
  have h10 : t2.skel = T.put p (.split e.w (.leaf l.w0s) (.leaf r.w0s)) := by
    obtain ⟨_, w, a, b, h⟩ := h7
    obtain ⟨n, ws', e1, e2⟩ := at_of_get t2 p _ (by rw [h]; exact Skel.get_put T p k _ hk)
    rw [h8] at e1
    cases e1
    rw [h, ← e2]
    rfl
  refine ⟨⟨t2.put p (.split { e with w := start.w } (.leaf { l with w0s := start.left }) (.leaf { r with w0s := start.right })),
    data1, if wrongPredictions labels t1 cv < s.bestErrors then wrongPredictions labels t1 cv else s.bestErrors,
    if wrongPredictions labels t1 cv < s.bestErrors then ⟨e.w, l.w0s, r.w0s⟩ else s.best⟩, ?_, ?_, ?_, h3, ?_⟩
  · unfold softTry
    simp only [h1, res_bind_ok, h4, h8]
    rfl
  · exact put_sized t2 p _ h5 ⟨⟨h9.1.1, h9.1.2.1, hstart.1⟩, ⟨hstart.2.1, h9.2.1.2⟩, hstart.2.2, h9.2.2.2⟩
  · show (t2.put p _).skel = _
    rw [skel_put, h10, Skel.put_put]
    rfl
  · show (if wrongPredictions labels t1 cv < s.bestErrors then wrongPredictions labels t1 cv else s.bestErrors) = _ ∨ _
    by_cases hlt : wrongPredictions labels t1 cv < s.bestErrors
    · simp only [if_pos hlt]
      refine Or.inr ⟨h9.1.2.2, h9.2.1.1, h9.2.2.1, ?_⟩
      intro t ht hsk
      exact wrong_skel hcv ht h2.1 (by rw [hsk, ← h6, h10])
    · simp only [if_neg hlt]
      exact hs.best

theorem tries_ok {labels : List String} {d : Nat} {T k : Skel F} {p : List Bool} (hk : T.get p = some k)
    (param : SoftParam F) (hσ : ∀ n, IsPermutation (param.shuffleOrder n) n) {cv D : IList F} (hcv : SoftSetting labels d cv)
    (hD : SoftSetting labels d D) (hne : D ≠ []) {start : SoftCopy F} (hstart : start.w.length = d + 1 ∧
    start.left.length = labels.length ∧ start.right.length = labels.length) : ∀ (is : List Nat) {s : SoftTry F},
    TryInv labels d cv D T p start s →
    ∃ s', is.foldlM (softTry labels param cv p start) s = .ok s' ∧ TryInv labels d cv D T p start s' := by
  intro is
  induction is with
  | nil => intro s hs; exact ⟨s, rfl, hs⟩
  | cons i is ih =>
    intro s hs
    obtain ⟨s1, h1, h2⟩ := softTry_ok hk param hσ hcv hD hne hstart hs i
    obtain ⟨s2, h3, h4⟩ := ih h2
    exact ⟨s2, by rw [List.foldlM_cons, h1, res_bind_ok, h3], h4⟩

theorem wrong_le (labels : List String) (t : SoftNode F) (cv : IList F) : wrongPredictions labels t cv ≤ cv.length :=
  List.countP_le_length

theorem softSplit_ok {labels : List String} {d : Nat} {p : List Bool} {a : List F}
    (param : SoftParam F) (hσ : ∀ n, IsPermutation (param.shuffleOrder n) n) {cv D : IList F} (hcv : SoftSetting labels d cv)
    (hint : cv.length ≤ 2147483647)
    (hD : SoftSetting labels d D) (hne : D ≠ []) (hK : D.getDistinctClassLabels.length = labels.length) {s : SoftState F}
    (hs : s.root.Sized labels.length d) (hleaf : s.root.skel.get p = some (.leaf a)) (hdata : s.data.Perm D) :
    ∃ b s', softSplit labels param cv p s = .ok (b, s') ∧ s'.root.Sized labels.length d ∧ s'.data.Perm D ∧
      ((b = false ∧ s'.root.skel = s.root.skel) ∨ (b = true ∧ wrongPredictions labels s'.root cv < wrongPredictions labels s.root cv ∧
        ∃ w l r, s'.root.skel = s.root.skel.put p (.split w (.leaf l) (.leaf r)))) := by
  obtain ⟨t0, h1, h2, h3⟩ := softErrors_ok hcv hs
  obtain ⟨n, ws, h4, h5⟩ := at_of_get t0 p _ (by rw [h3]; exact hleaf)
  have hn := sized_data (at_sized t0 p n ws h4 h2)
  obtain ⟨x0, l0, hl0⟩ := List.exists_cons_of_ne_nil (show s.data ≠ [] from fun h => hne (by rw [h] at hdata; exact hdata.symm.eq_nil))
  obtain ⟨u, hu⟩ := hD.numbers x0 (hdata.mem_iff.1 (by rw [hl0]; simp))
  have hd : x0.attrs.length = d := by rw [hu.2, List.length_map, hu.1]
  have hK' : s.data.getDistinctClassLabels.length = labels.length := by rw [distinct_perm hdata, hK]
  set K := labels.length with hKdef
  set fresh := fun (i : Nat) => SoftData.fresh param.rand (s.pos + i * freshDraws K d) K d with hfresh
  have hf : ∀ i, (fresh i).Sized K d := fun i => fresh_sized _ _ _ _
  have hnode : (SoftNode.split n.data (.leaf (fresh 0)) (.leaf (fresh 1))).Sized K d := ⟨hn, hf 0, hf 1⟩
  have hn0 : n.data.w0s = a := by
    cases n with
    | leaf e => simpa [SoftNode.skel, SoftNode.data] using h5
    | split e l r => simp [SoftNode.skel] at h5
  obtain ⟨t, h6, h7⟩ := tries_ok (start := ⟨n.data.w, (fresh 0).w0s, (fresh 1).w0s⟩) (p := p) hleaf param hσ hcv hD hne
    ⟨hn.2.2, (hf 0).1, (hf 1).1⟩ (List.range 11)
    (s := ⟨t0.put p (.split n.data (.leaf (fresh 0)) (.leaf (fresh 1))), s.data, 2147483647, ⟨[], (fresh 2).w0s, (fresh 3).w0s⟩⟩)
    ⟨put_sized t0 p _ h2 hnode, by
      show (t0.put p _).skel = _
      rw [skel_put, h3]; rfl, hdata, Or.inl rfl⟩
  have h8 : OneSplit K d s.root.skel p t.root := ⟨h7.sized, _, _, _, h7.root⟩
  obtain ⟨e, l, r, ws', h9, h10⟩ := h8.at _ hleaf
  have hrun : softSplit labels param cv p s = (if wrongPredictions labels s.root cv ≤ t.bestErrors then
      .ok (false, ⟨t.root.put p ((SoftNode.split e (.leaf l) (.leaf r)).unsplit n.data.w0s), t.data, s.pos + 6 * freshDraws K d⟩)
    else .ok (true, ⟨t.root.put p (.split { e with w := t.best.w } (.leaf { l with w0s := t.best.left })
      (.leaf { r with w0s := t.best.right })), t.data, s.pos + 6 * freshDraws K d⟩)) := by
    unfold softSplit IList.get
    simp only [h1, res_bind_ok, h4, hl0, atR_cons_zero, hd]
    rw [← hl0]
    simp only [hK']
    simp only [SoftNode.readCopy, SoftNode.data, res_pure, res_bind_ok]
    have h6' := h6
    simp only [hfresh, SoftNode.data] at h6'
    rw [h6']
    simp only [res_bind_ok, h9]
    rfl
  by_cases hle : wrongPredictions labels s.root cv ≤ t.bestErrors
  · have hsz : ((SoftNode.split e (.leaf l) (.leaf r)).unsplit n.data.w0s).Sized K d := ⟨hn.1, h10.1.2⟩
    refine ⟨_, _, by rw [hrun, if_pos hle], put_sized _ _ _ h7.sized hsz, h7.data, Or.inl ⟨rfl, ?_⟩⟩
    show (t.root.put p _).skel = _
    rw [skel_put, h7.root, Skel.put_put]
    show Skel.put s.root.skel p (.leaf n.data.w0s) = _
    rw [hn0]
    exact Skel.put_get _ _ _ hleaf
  · have hb : t.bestErrors < 2147483647 := by
      have := wrong_le labels s.root cv
      omega
    rcases h7.best with h | ⟨b1, b2, b3, b4⟩
    · omega
    have hsz : (t.root.put p (.split { e with w := t.best.w } (.leaf { l with w0s := t.best.left })
      (.leaf { r with w0s := t.best.right }))).Sized K d :=
      put_sized _ _ _ h7.sized ⟨⟨h10.1.1, h10.1.2.1, b1⟩, ⟨b2, h10.2.1.2⟩, b3, h10.2.2.2⟩
    have hsk : (t.root.put p (.split { e with w := t.best.w } (.leaf { l with w0s := t.best.left })
      (.leaf { r with w0s := t.best.right }))).skel = s.root.skel.put p (.split t.best.w (.leaf t.best.left) (.leaf t.best.right)) := by
      rw [skel_put, h7.root, Skel.put_put]
      rfl
    refine ⟨_, _, by rw [hrun, if_neg hle], hsz, h7.data, Or.inr ⟨rfl, ?_, _, _, _, hsk⟩⟩
    show wrongPredictions labels (t.root.put p _) cv < _
    rw [b4 _ hsz hsk]
    omega

theorem softSplit_pos {labels : List String} {d : Nat} {p : List Bool} {param : SoftParam F} {cv D : IList F}
    (hD : SoftSetting labels d D) (hne : D ≠ []) (hK : D.getDistinctClassLabels.length = labels.length) {s s' : SoftState F}
    (hdata : s.data.Perm D) {b : Bool} (h : softSplit labels param cv p s = .ok (b, s')) :
    s'.pos = s.pos + 6 * freshDraws labels.length d := by
  obtain ⟨x0, l0, hl0⟩ := List.exists_cons_of_ne_nil (show s.data ≠ [] from fun h => hne (by rw [h] at hdata; exact hdata.symm.eq_nil))
  obtain ⟨u, hu⟩ := hD.numbers x0 (hdata.mem_iff.1 (by rw [hl0]; simp))
  have hd : x0.attrs.length = d := by rw [hu.2, List.length_map, hu.1]
  have hK' : s.data.getDistinctClassLabels.length = labels.length := by rw [distinct_perm hdata, hK]
  have hx : s.data.get 0 = .ok x0 := by rw [hl0]; rfl
  unfold softSplit at h
  simp only [bind_ok_iff] at h
  obtain ⟨_, _, n, _, y, hy, st, _, t, _, m, _, h⟩ := h
  rw [hx] at hy; cases hy
  rw [hd, hK'] at h
  split at h
  · cases h; rfl
  · simp only [bind_ok_iff] at h
    obtain ⟨_, _, h⟩ := h
    cases h; rfl

theorem softGrow_ok {labels : List String} {d : Nat}
    (param : SoftParam F) (hσ : ∀ n, IsPermutation (param.shuffleOrder n) n) {cv D : IList F} (hcv : SoftSetting labels d cv)
    (hint : cv.length ≤ 2147483647)
    (hD : SoftSetting labels d D) (hne : D ≠ []) (hK : D.getDistinctClassLabels.length = labels.length) :
    ∀ (fuel : Nat) {p : List Bool} {a : List F} {s : SoftState F}, s.root.Sized labels.length d → s.root.skel.get p = some (.leaf a) →
    s.data.Perm D → wrongPredictions labels s.root cv < fuel →
    ∃ s' m, softGrow labels param cv fuel p s = .ok s' ∧ s'.root.Sized labels.length d ∧ s'.data.Perm D ∧
      s'.root.skel = s.root.skel.put p m ∧
      wrongPredictions labels s'.root cv + m.splits ≤ wrongPredictions labels s.root cv ∧ (m.splits = 0 → m = .leaf a) ∧
      s'.pos = s.pos + 6 * freshDraws labels.length d * (2 * m.splits + 1) := by
  intro fuel
  induction fuel with
  | zero => intro p a s _ _ _ h; omega
  | succ fuel ih =>
    intro p a s hs hleaf hdata hfuel
    obtain ⟨b, s1, h1, h2, h3, h4⟩ := softSplit_ok param hσ hcv hint hD hne hK hs hleaf hdata
    have hpos := softSplit_pos hD hne hK hdata h1
    rcases h4 with ⟨rfl, h4⟩ | ⟨rfl, h4, w, l, r, h5⟩
    · refine ⟨s1, .leaf a, ?_, h2, h3, ?_, ?_, fun _ => rfl, by simpa [Skel.splits] using hpos⟩
      · simp only [softGrow, h1, res_bind_ok]
        rfl
      · rw [h4, Skel.put_get _ _ _ hleaf]
      · simp only [Skel.splits, Nat.add_zero]
        exact (wrong_skel hcv h2 hs h4).le
    · have hg : s1.root.skel.get p = some (.split w (.leaf l) (.leaf r)) := by rw [h5]; exact Skel.get_put _ _ _ _ hleaf
      obtain ⟨s2, m1, e1, e2, e3, e4, e5, _, e7⟩ := ih (p := p ++ [false]) (a := l) h2 (by simpa using Skel.get_child false _ _ _ _ _ hg) h3 (by omega)
      have hg2 : s2.root.skel = s1.root.skel.put p (.split w m1 (.leaf r)) := by
        rw [e4, Skel.put_child false _ _ _ _ _ _ hg]
        rfl
      have hg3 : s2.root.skel.get p = some (.split w m1 (.leaf r)) := by rw [hg2]; exact Skel.get_put _ _ _ _ hg
      obtain ⟨s3, m2, f1, f2, f3, f4, f5, _, f7⟩ := ih (p := p ++ [true]) (a := r) e2 (by simpa using Skel.get_child true _ _ _ _ _ hg3) e3 (by omega)
      refine ⟨s3, .split w m1 m2, ?_, f2, f3, ?_, ?_, fun h => by simp [Skel.splits] at h, ?_⟩
      · simp only [softGrow, h1, res_bind_ok, e1]
        exact f1
      · rw [f4, Skel.put_child true _ _ _ _ _ _ hg3, hg2, Skel.put_put, h5, Skel.put_put]
        rfl
      · simp only [Skel.splits]
        omega
      · rw [f7, e7, hpos]
        simp only [Skel.splits]
        ring

end Verif
