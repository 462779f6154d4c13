import Verif.Props.SoftmaxFloat
import Verif.Props.NeuralNetwork

/-! # Property C176: training a perceptron in double precision -/

set_option linter.unusedSectionVars false

namespace Verif
open Dbl
variable {L : CMath}

/-- a number of absolute value at most `B` -/
def D53.Within (a : D53 L) (B : ℚ) : Prop := ∃ q, D53.Is a q ∧ |q| ≤ B

/-- all entries are numbers of absolute value at most `B` -/
def Mat.Within (W : Mat (D53 L)) (B : ℚ) : Prop := ∀ i < W.rows, ∀ j < W.cols, (W.e i j).Within B

namespace D53

theorem rnd_abs_le {q B : ℚ} (hB : Rep B) (h : |q| ≤ B) : |rnd q| ≤ B := by
  rw [abs_le] at *
  exact ⟨le_rnd_of_le hB.neg h.1, rnd_le_of_le hB h.2⟩

theorem Within.mono {a : D53 L} {A B : ℚ} (h : a.Within A) (hAB : A ≤ B) : a.Within B := by
  obtain ⟨q, h1, h2⟩ := h; exact ⟨q, h1, h2.trans hAB⟩

theorem Within.add {a b : D53 L} {A B C : ℚ} (ha : a.Within A) (hb : b.Within B) (hC : Rep C) (h : A + B ≤ C) :
    (a +. b).Within C := by
  obtain ⟨p, hp, h1⟩ := ha
  obtain ⟨q, hq, h2⟩ := hb
  exact ⟨_, hp.add hq, rnd_abs_le hC ((abs_add_le p q).trans (by linarith))⟩

theorem Within.mul {a b : D53 L} {A B C : ℚ} (ha : a.Within A) (hb : b.Within B) (hC : Rep C) (h : A * B ≤ C) :
    (a *. b).Within C := by
  obtain ⟨p, hp, h1⟩ := ha
  obtain ⟨q, hq, h2⟩ := hb
  refine ⟨_, hp.mul hq, rnd_abs_le hC ?_⟩
  rw [abs_mul]
  exact (mul_le_mul h1 h2 (abs_nonneg _) ((abs_nonneg _).trans h1)).trans h

theorem rep_scaled {n : ℕ} (h : n ≤ 2 ^ 53) (e : ℤ) : Rep ((n : ℚ) * (2 : ℚ) ^ e) := by
  refine ⟨n, e, ?_, by push_cast; ring⟩
  rw [abs_of_nonneg (by positivity)]
  exact_mod_cast h

end D53

/-! ## one step -/

theorem dot_within {X m : ℕ} {e : ℤ} (l : List (D53 L × D53 L)) (hl : ∀ p ∈ l, p.1.Within ((m : ℚ) * 2 ^ e) ∧ p.2.Within X)
    (hD : l.length * X * m ≤ 2 ^ 53) :
    (l.foldl (fun s p => s +. (p.1 *. p.2)) (Dbl.zero : D53 L)).Within (((l.length * X * m : ℕ) : ℚ) * 2 ^ e) := by
  induction l using List.reverseRecOn with
  | nil => exact ⟨0, D53.is_zero, by simp⟩
  | append_singleton l p ih =>
    rw [List.length_append, List.length_singleton] at hD ⊢
    have hle : l.length * X * m + X * m = (l.length + 1) * X * m := by ring
    rw [List.foldl_append, List.foldl_cons, List.foldl_nil]
    have h1 := ih (fun q hq => hl q (by simp [hq])) (by omega)
    have h2 := hl p (by simp)
    have h3 : (p.1 *. p.2).Within (((X * m : ℕ) : ℚ) * 2 ^ e) :=
      h2.1.mul h2.2 (D53.rep_scaled (by omega) e) (by push_cast; exact le_of_eq (by ring))
    refine h1.add h3 (D53.rep_scaled (by omega) e) (le_of_eq ?_)
    push_cast; ring

theorem softmax_within (hL : ExpCorrect L) (o : List (D53 L)) (ho : ∀ a ∈ o, a.Within 700) :
    ∀ y ∈ normalizeOutput o, ∃ q, D53.Is y q ∧ 0 ≤ q ∧ q ≤ 1 := by
  intro y hy
  have hne : o ≠ [] := by rintro rfl; simp [normalizeOutput] at hy
  let q : D53 L → ℚ := fun a => match a.val with | .fin r => r | _ => 0
  have hq : ∀ a ∈ o, D53.Is a (q a) ∧ |q a| ≤ 700 := by
    intro a ha
    obtain ⟨r, h1, h2⟩ := ho a ha
    have : q a = r := by unfold D53.Is at h1; simp only [q, h1]
    rw [this]; exact ⟨h1, h2⟩
  have hb : ∀ a ∈ o, -700 ≤ q a ∧ q a ≤ 700 := fun a ha => abs_le.1 (hq a ha).2
  obtain ⟨m, hm⟩ := List.exists_mem_of_ne_nil o hne
  obtain ⟨p, h1, h2, h3, _⟩ := C175_softmax_partial hL o q (fun a ha => (hq a ha).1)
    (fun a ha => by linarith [(hb a ha).2]) ⟨m, hm, by linarith [(hb m hm).1]⟩
  obtain ⟨i, hi⟩ := List.getElem?_of_mem hy
  have hlt : i < o.length := by rw [← h2]; exact (List.getElem?_eq_some_iff.1 hi).1
  obtain ⟨y', h4, h5⟩ := h1 i o[i] (List.getElem?_eq_getElem hlt)
  rw [hi] at h4; cases h4
  exact ⟨_, h5, h3 _ (List.getElem_mem hlt)⟩

theorem unitVec_mem {n i : Nat} {r : List (D53 L)} (h : unitVec n i (Dbl.one : D53 L) = .ok r) :
    ∀ a ∈ r, ∃ q, D53.Is a q ∧ 0 ≤ q ∧ q ≤ 1 := by
  unfold unitVec at h
  split_ifs at h with hi
  cases h
  intro a ha
  rcases List.mem_or_eq_of_mem_set ha with h | rfl
  · rw [List.mem_replicate] at h
    exact ⟨0, h.2 ▸ D53.is_zero, le_rfl, zero_le_one⟩
  · exact ⟨1, D53.is_one, zero_le_one, le_rfl⟩

theorem diffR_mem {r y d : List (D53 L)} (h : diffR r y = .ok d) (hr : ∀ a ∈ r, ∃ q, D53.Is a q ∧ 0 ≤ q ∧ q ≤ 1)
    (hy : ∀ a ∈ y, ∃ q, D53.Is a q ∧ 0 ≤ q ∧ q ≤ 1) : ∀ a ∈ d, a.Within 1 := by
  unfold diffR subChecked at h
  split_ifs at h with hl
  cases h
  intro a ha
  rw [List.mem_iff_getElem] at ha
  obtain ⟨i, hi, rfl⟩ := ha
  rw [List.getElem_zipWith]
  rw [List.length_zipWith] at hi
  obtain ⟨p, hp, p0, p1⟩ := hr r[i] (List.getElem_mem _)
  obtain ⟨q, hq, q0, q1⟩ := hy y[i] (List.getElem_mem _)
  exact ⟨_, hp.sub hq, D53.rnd_abs_le D53.rep_one (abs_le.2 ⟨by linarith, by linarith⟩)⟩

theorem percUpdate_within (hL : ExpCorrect L) (labels : List String) (x : Inst (D53 L)) (v : List (D53 L)) (eta : D53 L)
    (W W' : Mat (D53 L)) {X m b : ℕ} {e : ℤ} {h : ℚ} (hv : ∀ c ∈ v, c.Within X) (heta : D53.Is eta h) (h0 : 0 ≤ h)
    (hb : h * X ≤ b * 2 ^ e) (hW : W.Within (m * 2 ^ e)) (hX : X ≤ 2 ^ 53) (hm : m + b ≤ 2 ^ 53)
    (hD : W.cols * X * m ≤ 2 ^ 53) (hact : ((W.cols * X * m : ℕ) : ℚ) * 2 ^ e ≤ 700)
    (hok : percUpdate labels x v eta W = .ok W') :
    W'.cols = W.cols ∧ W'.rows = W.rows ∧ W'.Within (((m + b : ℕ) : ℚ) * 2 ^ e) := by
  unfold percUpdate calculateRMinusY at hok
  obtain ⟨d, h1, h2⟩ := bind_ok_iff.1 hok
  obtain ⟨r, h3, h4⟩ := bind_ok_iff.1 h1
  obtain ⟨o, h5, h6⟩ := bind_ok_iff.1 h4
  have ho : ∀ a ∈ o, a.Within 700 := by
    unfold Mat.mulRightR Mat.mulRight at h5
    split_ifs at h5 with hc
    cases h5
    intro a ha
    obtain ⟨i, hi, rfl⟩ := List.mem_map.1 ha
    rw [List.mem_range] at hi
    have hlen : ((W.row i).zip v).length = W.cols := by simp [Mat.row, hc]
    have := dot_within (X := X) (m := m) (e := e) ((W.row i).zip v) (by
      intro p hp
      obtain ⟨p1, p2⟩ := List.of_mem_zip hp
      refine ⟨?_, hv _ p2⟩
      obtain ⟨j, hj, e⟩ := List.mem_map.1 p1
      rw [← e]
      exact hW i hi j (List.mem_range.1 hj)) (by rw [hlen]; exact hD)
    rw [hlen] at this
    exact this.mono hact
  have hd := diffR_mem h6 (unitVec_mem h3) (softmax_within hL o ho)
  unfold Mat.addR at h2
  split_ifs at h2 with hs
  cases h2
  refine ⟨rfl, rfl, fun i hi j hj => ?_⟩
  obtain ⟨s1, s2⟩ := hs
  have hi' : i < d.length := by
    have : W.rows = d.length := s1
    have hi : i < W.rows := hi
    omega
  have hj' : j < v.length := by
    have : W.cols = v.length := s2
    have hj : j < W.cols := hj
    omega
  have e1 : (d.getD i Dbl.zero).Within 1 := by
    rw [List.getD_eq_getElem?_getD, List.getElem?_eq_getElem hi']; exact hd _ (List.getElem_mem _)
  have e2 : (v.getD j Dbl.zero).Within X := by
    rw [List.getD_eq_getElem?_getD, List.getElem?_eq_getElem hj']; exact hv _ (List.getElem_mem _)
  have e3 : ((d.getD i Dbl.zero) *. (v.getD j Dbl.zero)).Within X := e1.mul e2 (D53.rep_nat hX) (by rw [one_mul])
  have e4 : (((d.getD i Dbl.zero) *. (v.getD j Dbl.zero)) *. eta).Within ((b : ℚ) * 2 ^ e) :=
    e3.mul ⟨h, heta, le_of_eq (abs_of_nonneg h0)⟩ (D53.rep_scaled (by omega) e) (by rw [mul_comm]; exact hb)
  exact (hW i hi j hj).add e4 (D53.rep_scaled hm e) (le_of_eq (by push_cast; ring))

theorem Mat.Within.mono {W : Mat (D53 L)} {A B : ℚ} (h : W.Within A) (hAB : A ≤ B) : W.Within B :=
  fun i hi j hj => (h i hi j hj).mono hAB

theorem percStep_within (hL : ExpCorrect L) (labels : List String) (x : Inst (D53 L)) (eta : D53 L)
    (W W' : Mat (D53 L)) {X m b : ℕ} {e : ℤ} {h : ℚ} (hv : ∀ v, inputVector x = .ok v → ∀ c ∈ v, c.Within X)
    (heta : D53.Is eta h) (h0 : 0 ≤ h)
    (hb : h * X ≤ b * 2 ^ e) (hW : W.Within (m * 2 ^ e)) (hX : X ≤ 2 ^ 53) (hm : m + b ≤ 2 ^ 53)
    (hD : W.cols * X * m ≤ 2 ^ 53) (hact : ((W.cols * X * m : ℕ) : ℚ) * 2 ^ e ≤ 700)
    (hok : percStep labels eta W x = .ok W') :
    W'.cols = W.cols ∧ W'.rows = W.rows ∧ W'.Within (((m + b : ℕ) : ℚ) * 2 ^ e) := by
  unfold percStep at hok
  obtain ⟨v, h1, h2⟩ := bind_ok_iff.1 hok
  have hmono : ((m : ℕ) : ℚ) * 2 ^ e ≤ ((m + b : ℕ) : ℚ) * 2 ^ e :=
    mul_le_mul_of_nonneg_right (by push_cast; linarith [Nat.cast_nonneg (α := ℚ) b]) (D53.two_zpow_pos e).le
  cases hu : percUpdate labels x v eta W with
  | ok W1 =>
    rw [hu] at h2
    cases h2
    exact percUpdate_within hL labels x v eta W W' (hv v h1) heta h0 hb hW hX hm hD hact hu
  | error er =>
    rw [hu] at h2
    cases er with
    | ub s => cases h2
    | throw s =>
      simp only [catching] at h2
      split_ifs at h2
      · cases h2; exact ⟨rfl, rfl, hW.mono hmono⟩

/-! ## the whole training -/

/-- the conditions under which no activation can leave the range of `exp`: `D` inputs (with the bias)
of absolute value at most `X`, initial weights of absolute value at most `a * 2 ^ e`, changes of at
most `b * 2 ^ e` per update, `N` updates -/
structure SafeTraining (D X a b N : ℕ) (e : ℤ) : Prop where
  inputs : 1 ≤ D ∧ 1 ≤ X ∧ X ≤ 2 ^ 53
  exact : D * X * (a + N * b) ≤ 2 ^ 53
  range : ((D * X * (a + N * b) : ℕ) : ℚ) * 2 ^ e ≤ 700

theorem SafeTraining.le {D X a b N k : ℕ} {e : ℤ} (h : SafeTraining D X a b N e) (hk : k ≤ N) : SafeTraining D X a b k e := by
  have hle : D * X * (a + k * b) ≤ D * X * (a + N * b) :=
    Nat.mul_le_mul_left _ (Nat.add_le_add_left (Nat.mul_le_mul_right _ hk) _)
  refine ⟨h.inputs, hle.trans h.exact, le_trans ?_ h.range⟩
  exact mul_le_mul_of_nonneg_right (by exact_mod_cast hle) (D53.two_zpow_pos e).le

theorem SafeTraining.sum_le {D X a b N : ℕ} {e : ℤ} (h : SafeTraining D X a b N e) : a + N * b ≤ 2 ^ 53 :=
  le_trans (Nat.le_mul_of_pos_left _ (Nat.mul_pos h.inputs.1 h.inputs.2.1)) h.exact

theorem percFold_within (hL : ExpCorrect L) (labels : List String) (eta : D53 L) {D X a b : ℕ} {e : ℤ} {h : ℚ}
    (heta : D53.Is eta h) (h0 : 0 ≤ h) (hb : h * X ≤ b * 2 ^ e) :
    ∀ (data : IList (D53 L)) (W W' : Mat (D53 L)) (k : ℕ),
    (∀ x ∈ data, ∀ v, inputVector x = .ok v → ∀ c ∈ v, c.Within X) → SafeTraining D X a b (k + data.length) e →
    W.cols = D → W.Within (((a + k * b : ℕ) : ℚ) * 2 ^ e) → data.foldlM (percStep labels eta) W = .ok W' →
    W'.cols = D ∧ W'.Within (((a + (k + data.length) * b : ℕ) : ℚ) * 2 ^ e) := by
  intro data
  induction data with
  | nil => intro W W' k _ _ hD hW hok; cases hok; exact ⟨hD, hW⟩
  | cons x data ih =>
    intro W W' k hv hs hD hW hok
    rw [List.foldlM_cons] at hok
    obtain ⟨W1, h1, h2⟩ := bind_ok_iff.1 hok
    rw [List.length_cons] at hs ⊢
    have hs0 : SafeTraining D X a b k e := hs.le (by omega)
    have hs1 : SafeTraining D X a b (k + 1) e := hs.le (by omega)
    have hsum := hs1.sum_le
    have hring : a + k * b + b = a + (k + 1) * b := by ring
    obtain ⟨c1, _, c3⟩ := percStep_within hL labels x eta W W1 (hv x (by simp)) heta h0 hb hW hs.inputs.2.2
      (by rw [hring]; exact hsum) (by rw [hD]; exact hs0.exact) (by rw [hD]; exact hs0.range) h1
    rw [hring] at c3
    have := ih W1 W' (k + 1) (fun y hy => hv y (by simp [hy])) (by rw [show k + 1 + data.length = k + (data.length + 1) by ring]; exact hs)
      (c1.trans hD) c3 h2
    rw [show k + 1 + data.length = k + (data.length + 1) by ring] at this
    exact this

theorem epochs_within (hL : ExpCorrect L) (labels : List String) (perf : Mat (D53 L) → Res (D53 L)) (decrease : D53 L)
    (σ : List Nat) {D X a b : ℕ} {e : ℤ} {dq : ℚ} (hdec : D53.Is decrease dq) (hd0 : 0 ≤ dq) (hd1 : dq ≤ 1)
    (data0 : IList (D53 L)) (hv : ∀ x ∈ data0, ∀ v, inputVector x = .ok v → ∀ c ∈ v, c.Within X) (eta0 : D53 L) {h : ℚ}
    (heta : D53.Is eta0 h) (h0 : 0 ≤ h) (hb : h * X ≤ b * 2 ^ e) (W0 : Mat (D53 L)) (hD : W0.cols = D)
    (hW : W0.Within ((a : ℚ) * 2 ^ e)) (start : D53 L) : ∀ (n : ℕ) (s : Epochs (Mat (D53 L)) (D53 L)),
    SafeTraining D X a b (n * σ.length) e →
    epochLoop (percStep labels) perf moreAccurate decrease σ n ⟨W0, W0, start, eta0, data0⟩ = .ok s →
    s.cur.cols = D ∧ s.best.cols = D ∧ s.cur.Within (((a + n * σ.length * b : ℕ) : ℚ) * 2 ^ e) ∧
      s.best.Within (((a + n * σ.length * b : ℕ) : ℚ) * 2 ^ e) ∧ (∀ x ∈ s.data, x ∈ data0) ∧
      ∃ h', D53.Is s.eta h' ∧ 0 ≤ h' ∧ h' ≤ h := by
  intro n
  induction n with
  | zero =>
    intro s _ hok
    cases hok
    simp only [Nat.zero_mul, Nat.add_zero]
    exact ⟨hD, hD, hW, hW, fun x hx => hx, h, heta, h0, le_rfl⟩
  | succ n ih =>
    intro s hs hok
    unfold epochLoop at hok ih
    rw [List.range_succ, List.foldlM_append] at hok
    obtain ⟨s1, h1, h2⟩ := bind_ok_iff.1 hok
    have hmul : (n + 1) * σ.length = n * σ.length + σ.length := by ring
    obtain ⟨c1, c2, c3, c4, c5, h', c6, c7, c8⟩ := ih s1 (hs.le (by omega)) h1
    simp only [List.foldlM_cons, List.foldlM_nil] at h2
    obtain ⟨s2, h3, h4⟩ := bind_ok_iff.1 h2
    cases h4
    unfold epochStep at h3
    obtain ⟨W1, h5, h6⟩ := bind_ok_iff.1 h3
    obtain ⟨p, h7, h8⟩ := bind_ok_iff.1 h6
    cases h8
    have hmem : ∀ x ∈ s1.data.shuffle σ, x ∈ data0 := by
      intro x hx
      obtain ⟨i, _, hi⟩ := List.mem_filterMap.1 hx
      exact c5 x (List.mem_of_getElem? hi)
    have hlen : (s1.data.shuffle σ).length ≤ σ.length := List.length_filterMap_le _ _
    obtain ⟨k1, k2⟩ := percFold_within hL labels s1.eta c6 c7
      (le_trans (mul_le_mul_of_nonneg_right c8 (Nat.cast_nonneg X)) hb) (s1.data.shuffle σ) s1.cur W1 (n * σ.length)
      (fun x hx => hv x (hmem x hx)) (hs.le (by omega)) c1 c3 h5
    have m1 : (((a + (n * σ.length + (s1.data.shuffle σ).length) * b : ℕ) : ℚ)) * 2 ^ e ≤
        ((a + (n + 1) * σ.length * b : ℕ) : ℚ) * 2 ^ e := by
      refine mul_le_mul_of_nonneg_right ?_ (D53.two_zpow_pos e).le
      have : a + (n * σ.length + (s1.data.shuffle σ).length) * b ≤ a + (n + 1) * σ.length * b :=
        Nat.add_le_add_left (Nat.mul_le_mul_right _ (by omega)) _
      exact_mod_cast this
    have m2 : (((a + n * σ.length * b : ℕ) : ℚ)) * 2 ^ e ≤ ((a + (n + 1) * σ.length * b : ℕ) : ℚ) * 2 ^ e := by
      refine mul_le_mul_of_nonneg_right ?_ (D53.two_zpow_pos e).le
      have : a + n * σ.length * b ≤ a + (n + 1) * σ.length * b :=
        Nat.add_le_add_left (Nat.mul_le_mul_right _ (by omega)) _
      exact_mod_cast this
    refine ⟨k1, ?_, k2.mono m1, ?_, hmem, D53.rnd (h' * dq), c6.mul hdec, D53.rnd_nonneg (mul_nonneg c7 hd0), ?_⟩
    · show (if moreAccurate p s1.bestPerf then W1 else s1.best).cols = D
      split_ifs
      · exact k1
      · exact c2
    · show (if moreAccurate p s1.bestPerf then W1 else s1.best).Within _
      split_ifs
      · exact k2.mono m1
      · exact c4.mono m2
    · refine le_trans (D53.rnd_le_of_le c6.rep ?_) c8
      exact mul_le_of_le_one_right c7 hd1

theorem addTo_members {F : Type} [Dbl F] {ps qs : Parts F} {k : Nat} {x : Inst F} (h : ps.addTo k x = .ok qs) :
    ∀ q ∈ qs, ∀ y ∈ q, y = x ∨ ∃ p ∈ ps, y ∈ p := by
  unfold Parts.addTo at h
  obtain ⟨p, h1, h2⟩ := bind_ok_iff.1 h
  cases h2
  intro q hq y hy
  rcases List.mem_or_eq_of_mem_set hq with h | rfl
  · exact .inr ⟨q, h, hy⟩
  · unfold IList.add at hy
    rcases List.mem_append.1 hy with h | h
    · unfold atR at h1
      cases hp : ps[k]? with
      | none => rw [hp] at h1; cases h1
      | some p' => rw [hp] at h1; cases h1; exact .inr ⟨_, List.mem_of_getElem? hp, h⟩
    · exact .inl (List.mem_singleton.1 h)

theorem stratified_members {F : Type} [Dbl F] {l : IList F} {r : F} {σ : List Nat} {ps : Parts F}
    (h : Parts.byRatioStratified l r σ = .ok ps) : ∀ p ∈ ps, ∀ x ∈ p, x ∈ l := by
  unfold Parts.byRatioStratified at h
  obtain ⟨st, h1, h2⟩ := bind_ok_iff.1 h
  cases h2
  refine foldlM_keeps (P := fun st : Counter × Parts F => ∀ p ∈ st.2, ∀ x ∈ p, x ∈ l) ?_ _ _ _ h1 (by simp)
  intro b i b' hb hstep
  obtain ⟨k, _, h3⟩ := bind_ok_iff.1 hstep
  obtain ⟨x, h4, h5⟩ := bind_ok_iff.1 h3
  have hx : x ∈ l := by
    unfold IList.get atR at h4
    cases hk : l[k]? with
    | none => rw [hk] at h4; cases h4
    | some y => rw [hk] at h4; cases h4; exact List.mem_of_getElem? hk
  have key : ∀ j qs, b.2.addTo j x = .ok qs → ∀ p ∈ qs, ∀ y ∈ p, y ∈ l := by
    intro j qs hq p hp y hy
    rcases addTo_members hq p hp y hy with rfl | ⟨p', hp', hy'⟩
    · exact hx
    · exact hb p' hp' y hy'
  simp only at h5
  split_ifs at h5
  · obtain ⟨qs, h6, h7⟩ := bind_ok_iff.1 h5
    cases h7
    exact key _ _ h6
  · obtain ⟨qs, h6, h7⟩ := bind_ok_iff.1 h5
    cases h7
    exact key _ _ h6

/-- **C176.** Training a perceptron yields weights that are numbers, and on the training instances class
probabilities that are numbers between 0 and 1, if the inputs, the initial weights and the
changes are so small that no activation can exceed 700 (`SafeTraining`). -/
theorem C176_training_partial (hL : ExpCorrect L) (param : NetParam (D53 L)) (old net : Net (Mat (D53 L)))
    (l : IList (D53 L)) (x0 : Inst (D53 L)) (hx0 : l[0]? = some x0) {X a b : ℕ} {e : ℤ} {eta dec : ℚ}
    (hinputs : ∀ x ∈ l, ∀ v, inputVector x = .ok v → ∀ c ∈ v, c.Within X)
    (hrandom : ∀ r c, (param.random r c).rows = r ∧ (param.random r c).cols = c ∧ (param.random r c).Within (a * 2 ^ e))
    (heta : D53.Is param.learningRate eta) (heta0 : 0 ≤ eta) (hchange : eta * X ≤ b * 2 ^ e)
    (hdec : D53.Is param.etaDecrease dec) (hdec0 : 0 ≤ dec) (hdec1 : dec ≤ 1)
    (hsafe : SafeTraining (x0.continuousAttributeSize.toNat + 1) X a b (param.epochs * param.shuffleOrder.length) e)
    (hok : percTrain param old l = .ok net) :
    net.weights.Within ((a + param.epochs * param.shuffleOrder.length * b : ℕ) * 2 ^ e) ∧
    ∀ x ∈ l, ∀ v o, inputVector x = .ok v → percOutput net.weights v = .ok o →
      ∀ y ∈ normalizeOutput o, ∃ p, D53.Is y p ∧ 0 ≤ p ∧ p ≤ 1 := by
  unfold percTrain at hok
  obtain ⟨ini, h1, h2⟩ := bind_ok_iff.1 hok
  obtain ⟨parts, h3, h4⟩ := bind_ok_iff.1 h2
  obtain ⟨data, h5, h6⟩ := bind_ok_iff.1 h4
  obtain ⟨held, h7, h8⟩ := bind_ok_iff.1 h6
  obtain ⟨s, h9, h10⟩ := bind_ok_iff.1 h8
  cases h10
  have hd : ini.2 = x0.continuousAttributeSize.toNat := by
    unfold netInitialize at h1
    obtain ⟨y, k1, k2⟩ := bind_ok_iff.1 h1
    unfold IList.get atR at k1
    rw [hx0] at k1
    cases k1
    split_ifs at k2
    cases k2; rfl
  have hdata : ∀ x ∈ data, x ∈ l := by
    unfold atR at h5
    cases hp : parts[1]? with
    | none => rw [hp] at h5; cases h5
    | some p => rw [hp] at h5; cases h5; exact stratified_members h3 _ (List.mem_of_getElem? hp)
  obtain ⟨r1, r2, r3⟩ := hrandom ini.1.length (ini.2 + 1)
  obtain ⟨c1, c2, c3, c4, _⟩ := epochs_within hL ini.1 _ param.etaDecrease param.shuffleOrder hdec hdec0 hdec1 data
    (fun x hx => hinputs x (hdata x hx)) param.learningRate heta heta0 hchange _ r2 r3 _ param.epochs s
    (by rw [hd]; exact hsafe) h9
  refine ⟨c4, ?_⟩
  intro x hx v o hv ho
  refine softmax_within hL o ?_
  have hv' := hinputs x hx v hv
  unfold percOutput Mat.mulRightR Mat.mulRight at ho
  split_ifs at ho with hc
  cases ho
  intro y hy
  obtain ⟨i, hi, rfl⟩ := List.mem_map.1 hy
  rw [List.mem_range] at hi
  have hlen : ((s.best.row i).zip v).length = x0.continuousAttributeSize.toNat + 1 := by
    have : s.best.cols = v.length := hc
    simp only [List.length_zip, Mat.row, List.length_map, List.length_range]
    omega
  have := dot_within (X := X) (m := a + param.epochs * param.shuffleOrder.length * b) (e := e) ((s.best.row i).zip v) (by
    intro p hp
    obtain ⟨p1, p2⟩ := List.of_mem_zip hp
    refine ⟨?_, hv' _ p2⟩
    obtain ⟨j, hj, e⟩ := List.mem_map.1 p1
    rw [← e]
    exact c4 i hi j (List.mem_range.1 hj)) (by rw [hlen]; exact hsafe.exact)
  rw [hlen] at this
  exact this.mono hsafe.range

/-! ## NaN -/

theorem nan_add (a b : D53 L) (h : a.val = .nan ∨ b.val = .nan) : (a +. b).val = .nan := by
  rw [D53.val_add]; rcases h with h | h <;> rw [h] <;> cases a.val <;> cases b.val <;> simp [XR.add, XR.rnd]

theorem nan_sub (a b : D53 L) (h : b.val = .nan) : (a -. b).val = .nan := by
  rw [D53.val_sub, h]; cases a.val <;> simp [XR.add, XR.neg, XR.rnd]

theorem nan_mul (a b : D53 L) (h : a.val = .nan) : (a *. b).val = .nan := by
  rw [D53.val_mul, h]; simp [XR.mul, XR.rnd]

theorem nan_div (a b : D53 L) (h : b.val = .nan) : (a /. b).val = .nan := by
  rw [D53.val_div, h]; cases a.val <;> simp [XR.div, XR.rnd]

theorem nan_sum {α : Type} (f : α → D53 L) : ∀ (l : List α) (s : D53 L), (s.val = .nan ∨ ∃ x ∈ l, (f x).val = .nan) →
    (l.foldl (fun s x => s +. f x) s).val = .nan := by
  intro l
  induction l with
  | nil => intro s h; simpa using h
  | cons a l ih =>
    intro s h
    rw [List.foldl_cons]
    apply ih
    rcases h with h | ⟨x, hx, h⟩
    · exact .inl (nan_add _ _ (.inl h))
    · rcases List.mem_cons.1 hx with rfl | hx
      · exact .inl (nan_add _ _ (.inr h))
      · exact .inr ⟨x, hx, h⟩

/-- all entries are NaN -/
def Mat.AllNaN (W : Mat (D53 L)) : Prop := ∀ i < W.rows, ∀ j < W.cols, (W.e i j).val = .nan

theorem softmax_nan (hL : ExpCorrect L) (o : List (D53 L)) (h : ∃ a ∈ o, a.val = .nan) :
    ∀ y ∈ normalizeOutput o, y.val = .nan := by
  intro y hy
  obtain ⟨a, _, rfl⟩ := List.mem_map.1 hy
  refine nan_div _ _ (nan_sum (fun b : D53 L => Dbl.exp b) o _ (.inr ?_))
  obtain ⟨b, hb, e⟩ := h
  exact ⟨b, hb, by rw [D53.exp_val, e, hL.nan]; rfl⟩

theorem mulRight_nan {W : Mat (D53 L)} {v : List (D53 L)} (hc : W.cols = v.length) {i j : Nat} (hj : j < W.cols)
    (h : (W.e i j).val = .nan) : (dotV (W.row i) v).val = .nan := by
  unfold dotV
  refine nan_sum (fun p : D53 L × D53 L => p.1 *. p.2) _ _ (.inr ⟨(W.e i j, v[j]), ?_, nan_mul _ _ h⟩)
  rw [List.mem_iff_getElem]
  refine ⟨j, by simp [Mat.row, hc]; omega, ?_⟩
  rw [List.getElem_zip]
  simp [Mat.row]

/-- the outcome of one update, in general -/
theorem percStep_ok (labels : List String) (eta : D53 L) (W : Mat (D53 L)) (x : Inst (D53 L)) (v : List (D53 L))
    (hv : inputVector x = .ok v) (hc : W.cols = v.length) (hr : W.rows = labels.length) (hlab : x.label ∈ labels) :
    ∃ (d : List (D53 L)) (W' : Mat (D53 L)), percStep labels eta W x = .ok W' ∧ W'.rows = W.rows ∧ W'.cols = W.cols ∧
      (∀ i < W.rows, ∃ r y : D53 L,
        (normalizeOutput ((List.range W.rows).map (fun i => dotV (W.row i) v)))[i]? = some y ∧ d[i]? = some (r -. y)) ∧
      ∀ i < W.rows, ∀ j < W.cols, W'.e i j = W.e i j +. (((d.getD i Dbl.zero) *. (v.getD j Dbl.zero)) *. eta) := by
  have hi : labels.idxOf x.label < labels.length := List.idxOf_lt_length_of_mem hlab
  set o := (List.range W.rows).map (fun i => dotV (W.row i) v) with ho
  set r := (List.replicate labels.length (Dbl.zero : D53 L)).set (labels.idxOf x.label) Dbl.one with hrdef
  have hrl : r.length = labels.length := by simp [hrdef]
  have hol : (normalizeOutput o).length = labels.length := by simp [normalizeOutput, ho, hr]
  set d := List.zipWith (fun a b => a -. b) r (normalizeOutput o) with hd
  have hdl : d.length = labels.length := by rw [hd, List.length_zipWith, hrl, hol, min_self]
  refine ⟨d, ⟨W.rows, W.cols, fun i j => W.e i j +. (((d.getD i Dbl.zero) *. (v.getD j Dbl.zero)) *. eta)⟩, ?_, rfl, rfl, ?_,
    fun _ _ _ _ => rfl⟩
  · unfold percStep
    rw [hv, res_bind_ok]
    have hup : percUpdate labels x v eta W = .ok ⟨W.rows, W.cols, fun i j => W.e i j +. (((d.getD i Dbl.zero) *. (v.getD j Dbl.zero)) *. eta)⟩ := by
      unfold percUpdate calculateRMinusY unitVec
      rw [if_pos hi, res_bind_ok]
      unfold Mat.mulRightR Mat.mulRight
      rw [if_pos hc]
      simp only [res_bind_ok]
      unfold diffR subChecked
      rw [if_pos (by rw [← hrdef, ← ho, hrl, hol])]
      simp only [res_bind_ok]
      unfold Mat.addR
      rw [if_pos ⟨by show W.rows = d.length; rw [hdl, hr], hc⟩]
      rfl
    rw [hup]; rfl
  · intro i hiW
    have h1 : i < r.length := by rw [hrl, ← hr]; exact hiW
    have h2 : i < (normalizeOutput o).length := by rw [hol, ← hr]; exact hiW
    refine ⟨r[i], (normalizeOutput o)[i], List.getElem?_eq_getElem h2, ?_⟩
    rw [hd, List.getElem?_eq_getElem (by rw [List.length_zipWith]; omega), List.getElem_zipWith]

/-- **C176.** An activation of 710 or more turns the weights of its class into NaN. -/
theorem C176_overflow_refuted (hL : ExpCorrect L) (labels : List String) (eta : D53 L) (W : Mat (D53 L)) (x : Inst (D53 L))
    (v : List (D53 L)) (hv : inputVector x = .ok v) (hc : W.cols = v.length) (hr : W.rows = labels.length)
    (hlab : x.label ∈ labels) (q : Nat → ℚ) (hq : ∀ i < W.rows, D53.Is (dotV (W.row i) v) (q i))
    (i : Nat) (hi : i < W.rows) (hbig : 710 ≤ q i) :
    ∃ W', percStep labels eta W x = .ok W' ∧ W'.rows = W.rows ∧ W'.cols = W.cols ∧
      ∀ j < W.cols, (W'.e i j).val = .nan := by
  obtain ⟨d, W', h1, h2, h3, h4, h5⟩ := percStep_ok labels eta W x v hv hc hr hlab
  refine ⟨W', h1, h2, h3, fun j hj => ?_⟩
  rw [h5 i hi j hj]
  obtain ⟨r, y, hy, hd⟩ := h4 i hi
  let qq : D53 L → ℚ := fun a => match a.val with | .fin r => r | _ => 0
  have hqq : ∀ k < W.rows, qq (dotV (W.row k) v) = q k := by
    intro k hk
    have := hq k hk
    unfold D53.Is at this
    simp only [qq, this]
  obtain ⟨y', hy', hn⟩ := C175_overflow_refuted hL ((List.range W.rows).map (fun i => dotV (W.row i) v)) qq (by
    intro a ha
    obtain ⟨k, hk, rfl⟩ := List.mem_map.1 ha
    rw [hqq k (List.mem_range.1 hk)]
    exact hq k (List.mem_range.1 hk)) i (dotV (W.row i) v) (by simp [hi]) (by rw [hqq i hi]; exact hbig)
  rw [hy] at hy'
  cases hy'
  rw [List.getD_eq_getElem?_getD, hd]
  exact nan_add _ _ (.inr (nan_mul _ _ (nan_mul _ _ (nan_sub _ _ hn))))

/-- **C176.** One weight that is NaN turns all weights into NaN at the next training instance, and they
stay so. -/
theorem C176_nan_spreads (hL : ExpCorrect L) (labels : List String) (eta : D53 L) (W : Mat (D53 L)) (x : Inst (D53 L))
    (v : List (D53 L)) (hv : inputVector x = .ok v) (hc : W.cols = v.length) (hr : W.rows = labels.length)
    (hlab : x.label ∈ labels) (i j : Nat) (hi : i < W.rows) (hj : j < W.cols) (hnan : (W.e i j).val = .nan) :
    ∃ W', percStep labels eta W x = .ok W' ∧ W'.rows = W.rows ∧ W'.cols = W.cols ∧ W'.AllNaN := by
  obtain ⟨d, W', h1, h2, h3, h4, h5⟩ := percStep_ok labels eta W x v hv hc hr hlab
  refine ⟨W', h1, h2, h3, fun i' hi' j' hj' => ?_⟩
  rw [h2] at hi'
  rw [h3] at hj'
  rw [h5 i' hi' j' hj']
  obtain ⟨r, y, hy, hd⟩ := h4 i' hi'
  have hn := softmax_nan hL ((List.range W.rows).map (fun i => dotV (W.row i) v))
    ⟨dotV (W.row i) v, List.mem_map.2 ⟨i, List.mem_range.2 hi, rfl⟩, mulRight_nan hc hj hnan⟩ y (List.mem_of_getElem? hy)
  rw [List.getD_eq_getElem?_getD, hd]
  exact nan_add _ _ (.inr (nan_mul _ _ (nan_mul _ _ (nan_sub _ _ hn))))

/-- **C176.** A perceptron whose weights are NaN predicts the first class for everything. -/
theorem C176_nan_answers (labels : List String) (c : String) (hc0 : labels[0]? = some c) (W : Mat (D53 L)) (hW : W.AllNaN)
    (hr : W.rows = labels.length) (x : Inst (D53 L)) (hx : x.isComposite = false) (v : List (D53 L))
    (hv : inputVector x = .ok v) (hc : W.cols = v.length) : netPredict labels (percOutput W) x = .ok c := by
  have hv0 : 0 < v.length := by
    unfold inputVector at hv
    obtain ⟨w, _, h⟩ := bind_ok_iff.1 hv
    cases h; simp
  have hl0 : 0 < W.rows := by rw [hr]; exact (List.getElem?_eq_some_iff.1 hc0).1
  unfold netPredict percOutput Mat.mulRightR Mat.mulRight
  rw [hv, res_bind_ok, if_pos hc]
  simp only [res_bind_ok, hx]
  have hmax : maxIndex ((List.range W.rows).map (fun i => dotV (W.row i) v)) = .ok 0 := by
    obtain ⟨n, hn⟩ := Nat.exists_eq_succ_of_ne_zero hl0.ne'
    rw [hn, List.range_succ_eq_map, List.map_cons]
    unfold maxIndex
    simp only
    congr 1
    have h0 : (dotV (W.row 0) v).val = .nan := mulRight_nan hc (by omega) (hW 0 hl0 0 (by omega))
    generalize List.zipIdx _ 1 = l
    induction l with
    | nil => rfl
    | cons p l ih =>
      rw [List.foldl_cons]
      rw [if_neg]
      · exact ih
      · rw [D53.lt_val, h0]; simp [XR.lt]
  rw [if_neg (by simp), hmax, res_bind_ok]
  unfold atR
  rw [hc0]

/-! ## a training that fails -/

/-- four people with their yearly income in the smallest unit of a currency -/
def incomes : IList (D53 coarseMath) :=
  [⟨"no", [.continuous (Dbl.ofInt 1000000)], none⟩, ⟨"yes", [.continuous (Dbl.ofInt 9000000)], none⟩,
   ⟨"no", [.continuous (Dbl.ofInt 2000000)], none⟩, ⟨"yes", [.continuous (Dbl.ofInt 8000000)], none⟩]

/-- one epoch, learning rate 1/8, initial weights 1/128, half of the data held out -/
def incomeParam : NetParam (D53 coarseMath) where
  ratio := Dbl.lit (1 / 2)
  splitOrder := [0, 1, 2, 3]
  shuffleOrder := [0, 1]
  random r c := ⟨r, c, fun _ _ => Dbl.lit (1 / 128)⟩
  epochs := 1
  learningRate := Dbl.lit (1 / 8)
  etaDecrease := Dbl.lit (1 / 2)

/-- **C176.** There are training data and initial weights, all of them numbers, from which a perceptron
with weights that are all NaN is trained; it answers "no" for everybody, although a threshold
on the income separates the classes. -/
theorem C176_refuted (old : Net (Mat (D53 coarseMath))) :
    ∃ net, percTrain incomeParam old incomes = .ok net ∧ net.weights.AllNaN ∧
      ∀ a : D53 coarseMath, ∀ label,
        netPredict net.labels (percOutput net.weights) ⟨label, [.continuous a], none⟩ = .ok "no" := by
  have h : ∀ old, (percTrain incomeParam old incomes).map (fun net => (net.labels, net.weights.rows, net.weights.cols,
      (List.range net.weights.rows).all fun i => (List.range net.weights.cols).all fun j => (net.weights.e i j).val == .nan)) =
      .ok (["no", "yes"], 2, 2, true) := by
    intro old
    show (percTrain incomeParam ⟨[], 0, ⟨0, 0, fun _ _ => Dbl.zero⟩⟩ incomes).map _ = _
    decide +kernel
  have h := h old
  cases hn : percTrain incomeParam old incomes with
  | error e => rw [hn] at h; cases h
  | ok net =>
    rw [hn] at h
    simp only [Except.map, Except.ok.injEq, Prod.mk.injEq] at h
    obtain ⟨h1, h2, h3, h4⟩ := h
    have hall : net.weights.AllNaN := by
      intro i hi j hj
      have := List.all_eq_true.1 (List.all_eq_true.1 h4 i (List.mem_range.2 hi)) j (List.mem_range.2 hj)
      simpa using this
    refine ⟨net, rfl, hall, fun a label => ?_⟩
    refine C176_nan_answers net.labels "no" (by rw [h1]; rfl) net.weights hall (by rw [h1, h2]; rfl) _ rfl [Dbl.one, a] rfl ?_
    rw [h3]; rfl

/-! ## a training that succeeds -/

/-- inputs of absolute value at most 1 -/
def smallData : IList (D53 coarseMath) :=
  [⟨"a", [.continuous (Dbl.lit (1 / 4))], none⟩, ⟨"b", [.continuous (Dbl.lit (-3 / 4))], none⟩,
   ⟨"a", [.continuous (Dbl.lit (1 / 2))], none⟩, ⟨"b", [.continuous (Dbl.lit (-1 / 2))], none⟩]

/-- 1000 epochs with two training instances are safe: weights up to `2 / 256`, changes up to `32 / 256` -/
example : SafeTraining 2 1 2 32 (1000 * 2) (-8) := by
  refine ⟨by norm_num, by norm_num, ?_⟩
  rw [show (2 : ℚ) ^ (-8 : ℤ) = 1 / 256 by norm_num [zpow_neg]]
  norm_num

example : ∃ net, percTrain incomeParam ⟨[], 0, ⟨0, 0, fun _ _ => Dbl.zero⟩⟩ smallData = .ok net ∧
    net.weights.Within ((2 + 1 * 2 * 32 : ℕ) * 2 ^ (-8 : ℤ)) := by
  have hrun : (percTrain incomeParam ⟨[], 0, ⟨0, 0, fun _ _ => Dbl.zero⟩⟩ smallData).map (fun net => net.labels) = .ok ["a", "b"] := by
    decide +kernel
  have h8 : D53.Is (Dbl.lit (1 / 8) : D53 coarseMath) (1 / 8) := by unfold D53.Is; decide +kernel
  have h2 : D53.Is (Dbl.lit (1 / 2) : D53 coarseMath) (1 / 2) := by unfold D53.Is; decide +kernel
  have h128 : D53.Is (Dbl.lit (1 / 128) : D53 coarseMath) (1 / 128) := by unfold D53.Is; decide +kernel
  have h4 : D53.Is (Dbl.lit (1 / 4) : D53 coarseMath) (1 / 4) := by unfold D53.Is; decide +kernel
  have h34 : D53.Is (Dbl.lit (-3 / 4) : D53 coarseMath) (-3 / 4) := by unfold D53.Is; decide +kernel
  have hm2 : D53.Is (Dbl.lit (-1 / 2) : D53 coarseMath) (-1 / 2) := by unfold D53.Is; decide +kernel
  cases hn : percTrain incomeParam ⟨[], 0, ⟨0, 0, fun _ _ => Dbl.zero⟩⟩ smallData with
  | error e => rw [hn] at hrun; cases hrun
  | ok net =>
    refine ⟨net, rfl, ?_⟩
    refine (C176_training_partial (X := 1) (a := 2) (b := 32) (e := -8) (eta := 1 / 8) (dec := 1 / 2) coarseMath_exp incomeParam _ net
      smallData _ rfl ?_ ?_ h8 (by norm_num) (by norm_num [zpow_neg]) h2 (by norm_num) (by norm_num) ?_ hn).1
    · intro x hx v hv c hc
      simp only [smallData, List.mem_cons, List.not_mem_nil, or_false] at hx
      rcases hx with rfl | rfl | rfl | rfl <;> cases hv <;>
        simp only [List.mem_cons, List.nil_append, List.not_mem_nil, or_false] at hc <;> rcases hc with rfl | rfl
      all_goals first
        | exact ⟨1, D53.is_one, by norm_num⟩
        | exact ⟨_, h4, by norm_num [abs_le]⟩
        | exact ⟨_, h34, by norm_num [abs_le]⟩
        | exact ⟨_, h2, by norm_num [abs_le]⟩
        | exact ⟨_, hm2, by norm_num [abs_le]⟩
    · intro r c
      exact ⟨rfl, rfl, fun i _ j _ => ⟨_, h128, by norm_num [abs_le, zpow_neg]⟩⟩
    · refine ⟨by decide, by decide, ?_⟩
      norm_num [incomeParam, zpow_neg, Inst.continuousAttributeSize, Attr.continuousAttributeSize]

end Verif
