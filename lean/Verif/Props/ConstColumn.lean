import Verif.Spec.ConstColumn
import Verif.Props.Duplicates
import Verif.Props.TreeAlike

/-! # Property C189: a column with one value in all training instances -/

set_option linter.unusedSectionVars false

namespace Verif
open Dbl

/-! ## instances with one more column -/

/-- where column `i` is after inserting one at `p` -/
def up (p i : Nat) : Nat := if i < p then i else i + 1

theorem up_ne (p i : Nat) : up p i ≠ p := by unfold up; split <;> omega

theorem up_lt {p i n : Nat} (hp : p ≤ n) : up p i < n + 1 ↔ i < n := by unfold up; split <;> omega

theorem up_lt_up {p i j : Nat} : up p i < up p j ↔ i < j := by unfold up; split <;> split <;> omega

theorem up_inj {p i j : Nat} (h : up p i = up p j) : i = j := by
  unfold up at h; split at h <;> split at h <;> omega

theorem exists_up {p j : Nat} (h : j ≠ p) : ∃ i, j = up p i := by
  by_cases hj : j < p
  · exact ⟨j, by unfold up; rw [if_pos hj]⟩
  · exact ⟨j - 1, by unfold up; rw [if_neg (by omega)]; omega⟩

theorem insert_get_up {α : Type} {p : Nat} {l : List α} (hp : p ≤ l.length) (a : α) (i : Nat) :
    (l.take p ++ a :: l.drop p)[up p i]? = l[i]? := by
  unfold up
  by_cases h : i < p
  · rw [if_pos h, List.getElem?_append_left (by simp; omega), List.getElem?_take_of_lt h]
  · rw [if_neg h, List.getElem?_append_right (by simp; omega), List.length_take, Nat.min_eq_left hp,
      show i + 1 - p = (i - p) + 1 by omega, List.getElem?_cons_succ, List.getElem?_drop]
    congr 1; omega

theorem insert_get_at {α : Type} {p : Nat} {l : List α} (hp : p ≤ l.length) (a : α) :
    (l.take p ++ a :: l.drop p)[p]? = some a := by
  rw [List.getElem?_append_right (by simp), List.length_take, Nat.min_eq_left hp, Nat.sub_self]
  rfl

section
variable {F : Type} [Dbl F] {p : Nat}

theorem insertColumn_length (x : Inst F) (a : Attr F) : (insertColumn p a x).attrs.length = x.attrs.length + 1 := by
  have := congrArg List.length (List.take_append_drop p x.attrs)
  simp only [insertColumn, List.length_append, List.length_cons] at this ⊢
  omega

theorem labels_insert (a : Attr F) (l : IList F) : (l.map (insertColumn p a)).map Inst.label = l.map Inst.label := by
  rw [List.map_map]; rfl

theorem labels_with (g : Inst F → Attr F) (l : IList F) : (l.map (withColumn p g)).map Inst.label = l.map Inst.label := by
  rw [List.map_map]; rfl

theorem dist_insert (a : Attr F) (l : IList F) : IList.classDistribution (l.map (insertColumn p a)) = l.classDistribution := by
  rw [classDistribution_eq, classDistribution_eq, labels_insert]

end

/-! ## decision trees -/

/-- the types of the columns with one more -/
def insertType (p : Nat) (t : AttrType) (ts : List AttrType) : List AttrType := ts.take p ++ t :: ts.drop p

section
variable {p : Nat} {ts : List AttrType}

theorem typesOf_insert {x : Inst ℝ} (hx : typesOf x = ts) (a : Attr ℝ) :
    typesOf (insertColumn p a x) = insertType p (typeOf a) ts := by
  subst hx
  simp [typesOf, insertColumn, insertType]

theorem insertType_length (t : AttrType) : (insertType p t ts).length = ts.length + 1 := by
  have := congrArg List.length (List.take_append_drop p ts)
  simp only [insertType, List.length_append, List.length_cons] at this ⊢
  omega

/-- the same split, of the data with one more column -/
def Split.lift (p : Nat) : Split → Split
  | .discrete i => .discrete (up p i)
  | .indexed i k => .indexed (up p i) k
  | .threshold i t => .threshold (up p i) t

theorem lift_attr (S : Split) : (S.lift p).attr = up p S.attr := by cases S <;> rfl

theorem exists_lift {T : Split} (h : T.attr ≠ p) : ∃ S : Split, T = S.lift p := by
  obtain ⟨i, hi⟩ := exists_up h
  cases T with
  | discrete j => exact ⟨.discrete i, congrArg Split.discrete hi⟩
  | indexed j k => exact ⟨.indexed i k, congrArg (Split.indexed · k) hi⟩
  | threshold j t => exact ⟨.threshold i t, congrArg (Split.threshold · t) hi⟩

theorem values_insert (hp : p ≤ ts.length) {x : Inst ℝ} (hx : typesOf x = ts) (a : Attr ℝ) (i : Nat) :
    discValAt (insertColumn p a x) (up p i) = discValAt x i ∧ idxValAt (insertColumn p a x) (up p i) = idxValAt x i ∧
      contValAt (insertColumn p a x) (up p i) = contValAt x i := by
  have h : (insertColumn p a x).attrs[up p i]? = x.attrs[i]? := insert_get_up (by rw [typed_length hx]; exact hp) a i
  unfold discValAt idxValAt contValAt
  rw [h]
  exact ⟨rfl, rfl, rfl⟩

theorem values_with (hp : p ≤ ts.length) {x : Inst ℝ} (hx : typesOf x = ts) (g : Inst ℝ → Attr ℝ) (i : Nat) :
    discValAt (withColumn p g x) (up p i) = discValAt x i ∧ idxValAt (withColumn p g x) (up p i) = idxValAt x i ∧
      contValAt (withColumn p g x) (up p i) = contValAt x i := values_insert hp hx (g x) i

theorem values_at (hp : p ≤ ts.length) {x y : Inst ℝ} (hx : typesOf x = ts) (hy : typesOf y = ts) (a : Attr ℝ) :
    discValAt (insertColumn p a x) p = discValAt (insertColumn p a y) p ∧
    idxValAt (insertColumn p a x) p = idxValAt (insertColumn p a y) p ∧
    contValAt (insertColumn p a x) p = contValAt (insertColumn p a y) p := by
  have h : (insertColumn p a x).attrs[p]? = some a := insert_get_at (by rw [typed_length hx]; exact hp) a
  have h' : (insertColumn p a y).attrs[p]? = some a := insert_get_at (by rw [typed_length hy]; exact hp) a
  unfold discValAt idxValAt contValAt
  rw [h, h']
  exact ⟨rfl, rfl, rfl⟩

theorem entropy_insert (hp : p ≤ ts.length) {data : IList ℝ} (hts : ∀ x ∈ data, typesOf x = ts) (g : Inst ℝ → Attr ℝ) (S : Split) :
    (S.lift p).entropy (data.map (withColumn p g)) = S.entropy data := by
  unfold Split.entropy Split.lift
  cases S with
  | discrete i =>
    dsimp only
    exact condEntropy_map (withColumn p g) (fun _ => rfl) (fun x hx => (values_with hp (hts x hx) g i).1)
  | indexed i k =>
    dsimp only
    exact condEntropy_map (withColumn p g) (fun _ => rfl) (fun x hx => by rw [(values_with hp (hts x hx) g i).2.1])
  | threshold i t =>
    dsimp only
    exact condEntropy_map (withColumn p g) (fun _ => rfl) (fun x hx => by rw [(values_with hp (hts x hx) g i).2.2])

/-- splitting on the constant column does not lower the entropy -/
theorem entropy_at (hp : p ≤ ts.length) {data : IList ℝ} (hne : data ≠ []) (hts : ∀ x ∈ data, typesOf x = ts) (a : Attr ℝ)
    (T : Split) (hT : T.attr = p) :
    T.entropy (data.map (insertColumn p a)) = shannon ((data.map (insertColumn p a)).map Inst.label) := by
  have hne' : data.map (insertColumn p a) ≠ [] := by simpa using hne
  have key : ∀ x ∈ data.map (insertColumn p a), ∀ y ∈ data.map (insertColumn p a),
      discValAt x p = discValAt y p ∧ idxValAt x p = idxValAt y p ∧ contValAt x p = contValAt y p := by
    intro x hx y hy
    obtain ⟨x, hxm, rfl⟩ := List.mem_map.1 hx
    obtain ⟨y, hym, rfl⟩ := List.mem_map.1 hy
    exact values_at hp (hts x hxm) (hts y hym) a
  unfold Split.entropy
  cases T with
  | discrete i =>
    have hT : i = p := hT
    subst hT
    exact condEntropy_const hne' (fun x hx y hy => (key x hx y hy).1)
  | indexed i k =>
    have hT : i = p := hT
    subst hT
    exact condEntropy_const hne' (fun x hx y hy => by rw [(key x hx y hy).2.1])
  | threshold i t =>
    have hT : i = p := hT
    subst hT
    exact condEntropy_const hne' (fun x hx y hy => by rw [(key x hx y hy).2.2])

theorem candidate_insert (hp : p ≤ ts.length) {data : IList ℝ} (hts : ∀ x ∈ data, typesOf x = ts) (g : Inst ℝ → Attr ℝ) {τ : AttrType} (S : Split) :
    (S.lift p).Candidate (insertType p (τ) ts) (data.map (withColumn p g)) ↔ S.Candidate ts data := by
  have hget : ∀ i, (insertType p (τ) ts)[up p i]? = ts[i]? := fun i => insert_get_up hp _ i
  cases S with
  | discrete i =>
    simp only [Split.Candidate, Split.lift]
    rw [hget]
  | indexed i k =>
    simp only [Split.Candidate, Split.lift]
    rw [hget]
    simp only [List.mem_map, exists_exists_and_eq_and]
    refine and_congr Iff.rfl (and_congr Iff.rfl (exists_congr fun x => and_congr_right fun hx => ?_))
    rw [(values_with hp (hts x hx) g i).2.1]
  | threshold i t =>
    simp only [Split.Candidate, Split.lift]
    rw [hget]
    simp only [List.mem_map, exists_exists_and_eq_and, forall_exists_index, and_imp, forall_apply_eq_imp_iff₂]
    refine and_congr Iff.rfl (exists_congr fun x => and_congr_right fun hx => exists_congr fun y => and_congr_right fun hy => ?_)
    rw [(values_with hp (hts x hx) g i).2.2, (values_with hp (hts y hy) g i).2.2]
    refine and_congr Iff.rfl (and_congr (forall_congr' fun z => forall_congr' fun hz => ?_) Iff.rfl)
    rw [(values_with hp (hts z hz) g i).2.2]

theorem considered_insert (hp : p ≤ ts.length) {data data' : IList ℝ} (hts : ∀ x ∈ data, typesOf x = ts) (g : Inst ℝ → Attr ℝ) {τ : AttrType}
    (hd : data'.Perm (data.map (withColumn p g))) (S : Split) :
    Considered (insertType p (τ) ts) (List.range (ts.length + 1)) data' (S.lift p) ↔
      Considered ts (List.range ts.length) data S := by
  unfold Considered
  rw [candidate_perm hd, candidate_insert hp hts, lift_attr, List.mem_range, List.mem_range, up_lt hp]

theorem idxOf_range {i n : Nat} (h : i < n) : (List.range n).idxOf i = i := by
  have h1 : (List.range n)[i]'(by simpa using h) = i := List.getElem_range _
  conv_lhs => rw [← h1]
  rw [List.Nodup.idxOf_getElem List.nodup_range]

theorem before_insert (hp : p ≤ ts.length) {S T : Split} (hS : S.attr < ts.length) (hT : T.attr < ts.length) :
    Split.Before (List.range (ts.length + 1)) (S.lift p) (T.lift p) ↔ Split.Before (List.range ts.length) S T := by
  unfold Split.Before
  refine or_congr ?_ (or_congr ?_ ?_)
  · rw [lift_attr, lift_attr, idxOf_range ((up_lt hp).2 hS), idxOf_range ((up_lt hp).2 hT), idxOf_range hS, idxOf_range hT,
      up_lt_up]
  · constructor
    · rintro ⟨i, k, k', h1, h2, h3⟩
      cases S <;> simp only [Split.lift, Split.indexed.injEq, reduceCtorEq] at h1
      cases T <;> simp only [Split.lift, Split.indexed.injEq, reduceCtorEq] at h2
      obtain ⟨e1, rfl⟩ := h1
      obtain ⟨e2, rfl⟩ := h2
      have := up_inj (e1.trans e2.symm)
      subst this
      exact ⟨_, _, _, rfl, rfl, h3⟩
    · rintro ⟨i, k, k', rfl, rfl, h3⟩
      exact ⟨_, _, _, rfl, rfl, h3⟩
  · constructor
    · rintro ⟨i, k, k', h1, h2, h3⟩
      cases S <;> simp only [Split.lift, Split.threshold.injEq, reduceCtorEq] at h1
      cases T <;> simp only [Split.lift, Split.threshold.injEq, reduceCtorEq] at h2
      obtain ⟨e1, rfl⟩ := h1
      obtain ⟨e2, rfl⟩ := h2
      have := up_inj (e1.trans e2.symm)
      subst this
      exact ⟨_, _, _, rfl, rfl, h3⟩
    · rintro ⟨i, k, k', rfl, rfl, h3⟩
      exact ⟨_, _, _, rfl, rfl, h3⟩

/-- a branch, for the data with one more column -/
def liftBranch (p : Nat) (g : Inst ℝ → Attr ℝ) (j : Nat) (b : Cond ℝ × IList ℝ) : Cond ℝ × IList ℝ :=
  ({ b.1 with attr := (j : Int) }, b.2.map (withColumn p g))

theorem satisfy_lift (hp : p ≤ ts.length) {x : Inst ℝ} (hx : typesOf x = ts) (a : Attr ℝ) {i : Nat}
    (c : Cond ℝ) (hc : c.attr = (i : Nat)) :
    Cond.satisfy { c with attr := (up p i : Nat) } (insertColumn p a x) = c.satisfy x := by
  obtain ⟨k, cmp, v⟩ := c
  simp only at hc
  subst hc
  have h : (insertColumn p a x).attrs[up p i]? = x.attrs[i]? := insert_get_up (by rw [typed_length hx]; exact hp) a i
  have hat : Cond.attrOf ⟨((up p i : Nat) : Int), cmp, v⟩ (insertColumn p a x) = Cond.attrOf ⟨(i : Int), cmp, v⟩ x := by
    unfold Cond.attrOf
    simp only [Int.not_ofNat_neg, if_false, Int.toNat_natCast, Inst.getAttribute, atR, h]
  unfold Cond.satisfy
  simp only [hat]

theorem perm_filter_insert {g : Inst ℝ → Attr ℝ} {data q : IList ℝ} {f f' : Inst ℝ → Bool} (h : q.Perm (data.filter f))
    (hf : ∀ x ∈ data, f' (withColumn p g x) = f x) :
    (q.map (withColumn p g)).Perm ((data.map (withColumn p g)).filter f') := by
  rw [List.filter_map]
  have : data.filter (f' ∘ withColumn p g) = data.filter f := List.filter_congr (fun x hx => hf x hx)
  rw [this]
  exact h.map _

theorem branches_insert (hp : p ≤ ts.length) {data : IList ℝ} (hts : ∀ x ∈ data, typesOf x = ts) (g : Inst ℝ → Attr ℝ) (S : Split)
    {bs : List (Cond ℝ × IList ℝ)} (hb : S.Branches data bs) :
    (S.lift p).Branches (data.map (withColumn p g)) (bs.map (liftBranch p g (up p S.attr))) := by
  cases S with
  | discrete i =>
    obtain ⟨vs, h1, h2, h3⟩ := hb
    refine ⟨vs, h1, ?_, ?_⟩
    · intro v
      rw [h2 v, List.map_map]
      refine Iff.of_eq (congrArg (v ∈ ·) (List.map_congr_left (fun x hx => ?_)))
      exact (values_with hp (hts x hx) g i).1.symm
    · rw [List.forall₂_map_right_iff]
      refine h3.imp (fun v b hab => ⟨?_, ?_⟩)
      · simp only [liftBranch, hab.1, Split.attr]
      · exact perm_filter_insert hab.2 (fun x hx => by rw [(values_with hp (hts x hx) g i).1])
  | indexed i k =>
    obtain ⟨q, r, m, rfl, h1, h2⟩ := hb
    refine ⟨q.map (withColumn p g), r.map (withColumn p g), m, rfl, ?_, ?_⟩
    · exact perm_filter_insert h1 (fun x hx => by rw [(values_with hp (hts x hx) g i).2.1])
    · exact perm_filter_insert h2 (fun x hx => by rw [(values_with hp (hts x hx) g i).2.1])
  | threshold i t =>
    obtain ⟨q, r, rfl, h1, h2⟩ := hb
    refine ⟨q.map (withColumn p g), r.map (withColumn p g), rfl, ?_, ?_⟩
    · exact perm_filter_insert h1 (fun x hx => by rw [(values_with hp (hts x hx) g i).2.2])
    · exact perm_filter_insert h2 (fun x hx => by rw [(values_with hp (hts x hx) g i).2.2])

theorem firstOf_lift (hp : p ≤ ts.length) {x : Inst ℝ} (hx : typesOf x = ts) (g : Inst ℝ → Attr ℝ) (b0 : Attr ℝ) {i : Nat}
    {bs : List (Cond ℝ × IList ℝ)} (hat : ∀ b ∈ bs, b.1.attr = (i : Nat)) {k : Nat} {b : Cond ℝ × IList ℝ}
    (h : FirstOf bs x k b) : FirstOf (bs.map (liftBranch p g (up p i))) (insertColumn p b0 x) k (liftBranch p g (up p i) b) := by
  obtain ⟨h1, h2, h3⟩ := h
  refine ⟨by rw [List.getElem?_map, h1]; rfl, ?_, ?_⟩
  · exact (satisfy_lift hp hx b0 _ (hat b (List.mem_of_getElem? h1))).trans h2
  · intro j hj q hq
    rw [List.getElem?_map, Option.map_eq_some_iff] at hq
    obtain ⟨q, hq, rfl⟩ := hq
    exact (satisfy_lift hp hx b0 _ (hat q (List.mem_of_getElem? hq))).trans (h3 j hj q hq)

/-! ## the two trees -/

theorem labels_insert_perm {g : Inst ℝ → Attr ℝ} {data data' : IList ℝ} (hd : data'.Perm (data.map (withColumn p g))) :
    (data'.map Inst.label).Perm (data.map Inst.label) := by
  have := hd.map Inst.label
  rwa [labels_with] at this

theorem mixed_insert {g : Inst ℝ → Attr ℝ} {data data' : IList ℝ} (hd : data'.Perm (data.map (withColumn p g))) :
    (∃ x ∈ data', ∃ y ∈ data', x.label ≠ y.label) ↔ ∃ x ∈ data, ∃ y ∈ data, x.label ≠ y.label := by
  have hm : ∀ y, y ∈ data' ↔ ∃ x ∈ data, withColumn p g x = y := fun y => by rw [hd.mem_iff, List.mem_map]
  constructor
  · rintro ⟨x, hx, y, hy, h⟩
    obtain ⟨u, hu, rfl⟩ := (hm x).1 hx
    obtain ⟨v, hv, rfl⟩ := (hm y).1 hy
    exact ⟨u, hu, v, hv, h⟩
  · rintro ⟨x, hx, y, hy, h⟩
    exact ⟨_, (hm _).2 ⟨x, hx, rfl⟩, _, (hm _).2 ⟨y, hy, rfl⟩, h⟩

/-- an instance and the same instance with some value of type `τ` in one more column -/
def Inserted (p : Nat) (ts : List AttrType) (τ : AttrType) (x x' : Inst ℝ) : Prop :=
  typesOf x = ts ∧ ∃ b, typeOf b = τ ∧ x' = insertColumn p b x

theorem inserted_keeps {τ : AttrType} : KeepsClass (Inserted p ts τ) := by
  rintro x x' ⟨_, b, _, rfl⟩
  exact ⟨rfl, rfl⟩

theorem together_lift (hp : p ≤ ts.length) (S : Split) {x y : Inst ℝ} (hx : typesOf x = ts) (hy : typesOf y = ts)
    (b b' : Attr ℝ) : (S.lift p).Together (insertColumn p b x) (insertColumn p b' y) ↔ S.Together x y := by
  cases S with
  | discrete i =>
    show discValAt (insertColumn p b x) (up p i) = discValAt (insertColumn p b' y) (up p i) ↔ _
    rw [(values_insert hp hx b i).1, (values_insert hp hy b' i).1]; rfl
  | indexed i k =>
    show (idxValAt (insertColumn p b x) (up p i) = k ↔ idxValAt (insertColumn p b' y) (up p i) = k) ↔ _
    rw [(values_insert hp hx b i).2.1, (values_insert hp hy b' i).2.1]; rfl
  | threshold i t =>
    show (contValAt (insertColumn p b x) (up p i) ≤ t ↔ contValAt (insertColumn p b' y) (up p i) ≤ t) ↔ _
    rw [(values_insert hp hx b i).2.2, (values_insert hp hy b' i).2.2]; rfl

/-- No split of the new column is worth choosing: at every part `q` of the data it leaves as much entropy as no split at
all, or as some split of an earlier column. -/
def Idle (p : Nat) (ts : List AttrType) (g : Inst ℝ → Attr ℝ) (τ : AttrType) (D : IList ℝ) : Prop :=
  ∀ q : IList ℝ, (∀ x ∈ q, x ∈ D) → q ≠ [] → ∀ T : Split, T.attr = p →
    T.Candidate (insertType p τ ts) (q.map (withColumn p g)) →
    shannon (q.map Inst.label) ≤ T.entropy (q.map (withColumn p g)) ∨
    ∃ S, Considered ts (List.range ts.length) q S ∧ S.attr < p ∧ S.entropy q ≤ T.entropy (q.map (withColumn p g))

theorem alike_insert (hp : p ≤ ts.length) {g : Inst ℝ → Attr ℝ} {τ : AttrType} {D : IList ℝ} (hidle : Idle p ts g τ D) {data : IList ℝ} {t : Node ℝ}
    (ho : OptimalTree (Considered ts (List.range ts.length)) (Split.Before (List.range ts.length)) data t) :
    ∀ (data' : IList ℝ) (t' : Node ℝ),
      OptimalTree (Considered (insertType p (τ) ts) (List.range (ts.length + 1)))
        (Split.Before (List.range (ts.length + 1))) data' t' →
      (∀ x ∈ data, x ∈ D) → (∀ x ∈ data, typesOf x = ts) → data'.Perm (data.map (withColumn p g)) → DefOn ts t → DefOn (insertType p (τ) ts) t' →
      Alike (Inserted p ts τ) t t' := by
  induction ho with
  | pure data c lab d hne hlab hd h =>
    intro data' t' ho' _ _ hq _ _
    have hlp := labels_insert_perm hq
    have hnm : ¬ ∃ x ∈ data', ∃ y ∈ data', x.label ≠ y.label := by
      rw [mixed_insert hq]
      rintro ⟨x, hx, y, hy, hne⟩; exact hne (h x hx y hy)
    cases ho' with
    | pure _ c' lab' d' _ hlab' hd' _ =>
      have e1 := majority_determined hlab' hlab hlp
      have e2 := counts_determined hd' hd hlp
      subst e1 e2
      exact leaf_alike _ _ _ _ _
    | stop _ _ _ _ _ _ hm _ => exact absurd hm hnm
    | split _ _ _ _ _ _ _ _ _ hm => exact absurd hm hnm
  | stop data c lab d hlab hd hmixed h =>
    intro data' t' ho' hD hts hq _ _
    have hlp := labels_insert_perm hq
    cases ho' with
    | pure _ c' lab' d' _ _ _ hp' =>
      obtain ⟨x, hx, y, hy, hne⟩ := (mixed_insert hq).2 hmixed
      exact absurd (hp' x hx y hy) hne
    | stop _ c' lab' d' hlab' hd' _ _ =>
      have e1 := majority_determined hlab' hlab hlp
      have e2 := counts_determined hd' hd hlp
      subst e1 e2
      exact leaf_alike _ _ _ _ _
    | split _ c' lab' d' S' _ _ _ _ _ hS' hless' =>
      rw [Split.entropy_perm hq, shannon_perm (hq.map _)] at hless'
      have hne : data ≠ [] := by
        obtain ⟨x, hx, _⟩ := hmixed; exact List.ne_nil_of_mem hx
      have hat : S'.attr ≠ p := fun e => by
        rw [labels_with] at hless'
        rcases hidle data hD hne S' e ((candidate_perm hq S').1 hS'.1) with hi | ⟨S0, h0, _, hle⟩
        · exact absurd hless' (not_lt.2 hi)
        · exact absurd hless' (not_lt.2 ((h _ h0).trans hle))
      obtain ⟨T, rfl⟩ := exists_lift hat
      have := h _ ((considered_insert hp hts g hq T).1 hS')
      rw [entropy_insert hp hts, labels_with] at hless'
      exact absurd hless' (not_lt.2 this)
  | split data c lab d S bs ch hlab hd hmixed hS hless hmin hfirst hbs hlen hcond hch ih =>
    intro data' t' ho' hD hts hq hdn hdn'
    have hlp := labels_insert_perm hq
    have hne : data ≠ [] := by
      obtain ⟨x, hx, _⟩ := hmixed; exact List.ne_nil_of_mem hx
    have hent : ∀ T : Split, (T.lift p).entropy data' = T.entropy data := fun T => by
      rw [Split.entropy_perm hq, entropy_insert hp hts]
    have hsh : shannon (data'.map Inst.label) = shannon (data.map Inst.label) := shannon_perm hlp
    cases ho' with
    | pure _ c' lab' d' _ _ _ hp' =>
      obtain ⟨x, hx, y, hy, hne⟩ := (mixed_insert hq).2 hmixed
      exact absurd (hp' x hx y hy) hne
    | stop _ c' lab' d' _ _ _ h' =>
      have := h' _ ((considered_insert hp hts g hq S).2 hS)
      rw [hent, hsh] at this
      exact absurd hless (not_lt.2 this)
    | split _ c' lab' d' S' bs' ch' hlab' hd' hmixed' hS' hless' hmin' hfirst' hbs' hlen' hcond' hch' =>
      have e1 := majority_determined hlab' hlab hlp
      have e2 := counts_determined hd' hd hlp
      subst e1 e2
      have hat : S'.attr ≠ p := fun e => by
        rcases hidle data hD hne S' e ((candidate_perm hq S').1 hS'.1) with hi | ⟨S0, h0, hlt, hle⟩
        · rw [Split.entropy_perm hq, hsh] at hless'
          exact absurd hless' (not_lt.2 hi)
        · have hb : Split.Before (List.range (ts.length + 1)) (S0.lift p) S' := by
            refine .inl ?_
            rw [lift_attr, e, idxOf_range ((up_lt hp).2 (List.mem_range.1 h0.2)), idxOf_range (by omega)]
            unfold up
            rw [if_pos hlt]; exact hlt
          have := hfirst' _ ((considered_insert hp hts g hq S0).2 h0) hb
          rw [hent, Split.entropy_perm hq] at this
          exact absurd this (not_lt.2 hle)
      obtain ⟨T, rfl⟩ := exists_lift hat
      have hT := (considered_insert hp hts g hq T).1 hS'
      have hSl := (considered_insert (τ := τ) hp hts g hq S).2 hS
      have hSi : S.attr < ts.length := List.mem_range.1 hS.2
      have hTi : T.attr < ts.length := List.mem_range.1 hT.2
      have heq : S.entropy data = T.entropy data := by
        refine le_antisymm (hmin _ hT) ?_
        rw [← hent, ← hent]
        exact hmin' _ hSl
      have hsame : T = S := by
        refine split_unique hT hS (fun hb => ?_) (fun hb => ?_)
        · have := hfirst _ hT hb
          rw [heq] at this; exact lt_irrefl _ this
        · have := hfirst' _ hSl ((before_insert hp hSi hTi).2 hb)
          rw [hent, hent, heq] at this; exact lt_irrefl _ this
      subst hsame
      have hmv := branches_perm hq.symm _ _ (branches_insert hp hts g T hbs)
      have hba := branches_attr hbs
      have htx : ∀ {x : Inst ℝ} {b0 : Attr ℝ}, typesOf x = ts → typeOf b0 = τ →
          typesOf (insertColumn p b0 x) = insertType p (τ) ts := fun hx hb0 => by
        rw [← hb0]; exact typesOf_insert hx _
      cases hdn with
      | mk _ _ _ _ _ hdef hdch =>
      cases hdn' with
      | mk _ _ _ _ _ hdef' hdch' =>
      refine .mk _ _ _ _ _ _ _ ?_ ?_ ?_ ?_
      · rintro x _ ⟨hx, b0, hb0, rfl⟩
        exact ⟨fun n hn => hdef n hn x hx, fun n hn => hdef' n hn _ (htx hx hb0)⟩
      · rintro x _ ⟨hx, b0, hb0, rfl⟩
        rw [none_iff hlen hcond, none_iff hlen' hcond', ← (branches_match hS'.1 hmv hbs' _ (htx hx hb0)).1]
        constructor
        · intro hb b hbm
          obtain ⟨q, hqm, rfl⟩ := List.mem_map.1 hbm
          exact (satisfy_lift hp hx b0 _ (hba q hqm)).trans (hb q hqm)
        · intro hb b hbm
          exact (satisfy_lift hp hx b0 _ (hba b hbm)).symm.trans (hb _ (List.mem_map_of_mem hbm))
      · rintro x _ y _ k k' m m' ⟨hx, b0, hb0, rfl⟩ ⟨hy, b1, hb1, rfl⟩ hf hf'
        obtain ⟨b, hbk, hfo⟩ := firstIn_firstOf hlen hcond hf
        obtain ⟨b', hbk', hfo'⟩ := firstIn_firstOf hlen' hcond' hf'
        rw [firstOf_firstIn hlen hcond hbk hf.1, firstOf_firstIn hlen' hcond' hbk' hf'.1,
          together_firstOf hS.1 hbs hx hy hfo, together_firstOf hS'.1 hbs' (htx hx hb0) (htx hy hb1) hfo',
          together_lift hp T hx hy]
      · rintro x _ k k' c1 c1' ⟨hx, b0, hb0, rfl⟩ hf hf'
        obtain ⟨b, hbk, hfo⟩ := firstIn_firstOf hlen hcond hf
        obtain ⟨b', hbk', hfo'⟩ := firstIn_firstOf hlen' hcond' hf'
        have hfm := firstOf_lift hp hx g b0 hba hfo
        have hperm := ((branches_match hS'.1 hmv hbs' _ (htx hx hb0)).2 _ _ _ _ hfm hfo').1
        have hsubD : ∀ y ∈ b.2, y ∈ D := by
          intro y hy
          have := (branch_perm hts hS.1 hbs hbk).mem_iff.1 hy
          exact hD y (List.mem_filter.1 this).1
        have hsub : ∀ y ∈ b.2, typesOf y = ts := by
          intro y hy
          have := (branch_perm hts hS.1 hbs hbk).mem_iff.1 hy
          exact hts y (List.mem_filter.1 this).1
        exact ih k b c1 hbk hf.1 b'.2 c1' (hch' k' b' c1' hbk' hf'.1) hsubD hsub hperm.symm
          (hdch c1 (List.mem_of_getElem? hf.1)) (hdch' c1' (List.mem_of_getElem? hf'.1))

theorem grow_with (hp : p ≤ ts.length) {data : IList ℝ} (hne : data ≠ [])
    (hts : ∀ x ∈ data, typesOf x = ts) (hbd : IndexBounded data) {g : Inst ℝ → Attr ℝ} {τ : AttrType}
    (hg : ∀ x ∈ data, typeOf (g x) = τ) (hbd' : IndexBounded (data.map (withColumn p g))) (hidle : Idle p ts g τ data) :
    ∃ t t', Node.grow none false (data.length + 1) data Cond.root = .ok t ∧
      Node.grow none false ((data.map (withColumn p g)).length + 1) (data.map (withColumn p g)) Cond.root = .ok t' ∧
      DefOn ts t ∧ DefOn (insertType p τ ts) t' ∧ Alike (Inserted p ts τ) t t' := by
  have hv : ValidParam none := by intro _ _ h; cases h
  have hne' : data.map (withColumn p g) ≠ [] := by simpa using hne
  have hts' : ∀ x ∈ data.map (withColumn p g), typesOf x = insertType p τ ts := by
    intro x hx
    obtain ⟨y, hy, rfl⟩ := List.mem_map.1 hx
    rw [← hg y hy]
    exact typesOf_insert (hts y hy) (g y)
  obtain ⟨t, ht, ho, _, hg, _⟩ := grow_ok hv (show Node.triedIndices none ts.length = .ok (List.range ts.length) from rfl)
    false (data.length + 1) data Cond.root hne hts (by omega)
  obtain ⟨t', ht', ho', _, hg', _⟩ := grow_ok hv (show Node.triedIndices none (insertType p τ ts).length =
      .ok (List.range (ts.length + 1)) by rw [insertType_length]; rfl)
    false ((data.map (withColumn p g)).length + 1) _ Cond.root hne' hts' (by omega)
  exact ⟨t, t', ht, ht', hg.defOn, hg'.defOn,
    alike_insert hp hidle (ho rfl hbd) _ t' (ho' rfl hbd') (fun _ h => h) hts (List.Perm.refl _) hg.defOn hg'.defOn⟩

/-- a constant column is idle -/
theorem idle_const (hp : p ≤ ts.length) {data : IList ℝ} (hts : ∀ x ∈ data, typesOf x = ts) (a : Attr ℝ) :
    Idle p ts (fun _ => a) (typeOf a) data := by
  intro q hq hne T hT _
  have := entropy_at hp hne (fun x hx => hts x (hq x hx)) a T hT
  rw [labels_insert] at this
  exact .inl this.ge

theorem grow_insert (hp : p ≤ ts.length) {data : IList ℝ} (hne : data ≠ [])
    (hts : ∀ x ∈ data, typesOf x = ts) (hbd : IndexBounded data) (a : Attr ℝ) (ha : ∀ v k m, a = .indexed v k m → k < m) :
    ∃ t t', Node.grow none false (data.length + 1) data Cond.root = .ok t ∧
      Node.grow none false ((data.map (insertColumn p a)).length + 1) (data.map (insertColumn p a)) Cond.root = .ok t' ∧
      DefOn ts t ∧ DefOn (insertType p (typeOf a) ts) t' ∧ Alike (Inserted p ts (typeOf a)) t t' := by
  have hbd' : IndexBounded (data.map (insertColumn p a)) := by
    intro x hx y hy i v k m v' k' m' h1 h2
    obtain ⟨x, hxm, rfl⟩ := List.mem_map.1 hx
    obtain ⟨y, hym, rfl⟩ := List.mem_map.1 hy
    have hpx : p ≤ x.attrs.length := by rw [typed_length (hts x hxm)]; exact hp
    have hpy : p ≤ y.attrs.length := by rw [typed_length (hts y hym)]; exact hp
    by_cases hi : i = p
    · subst hi
      have e1 : (insertColumn i a x).attrs[i]? = some a := insert_get_at hpx a
      have e2 : (insertColumn i a y).attrs[i]? = some a := insert_get_at hpy a
      rw [e1] at h1
      rw [e2] at h2
      have q1 := Option.some.inj h1
      have q2 := Option.some.inj h2
      rw [q1] at q2
      cases q2
      exact ha _ _ _ q1
    · obtain ⟨j, rfl⟩ := exists_up hi
      have e1 : (insertColumn p a x).attrs[up p j]? = x.attrs[j]? := insert_get_up hpx a j
      have e2 : (insertColumn p a y).attrs[up p j]? = y.attrs[j]? := insert_get_up hpy a j
      rw [e1] at h1
      rw [e2] at h2
      exact hbd x hxm y hym j _ _ _ _ _ _ h1 h2
  exact grow_with (g := fun _ => a) hp hne hts hbd (fun _ _ => rfl) hbd' (idle_const hp hts a)

/-- **C189** (part) Decision trees grown without pruning, in exact arithmetic: a column `p` that has the same value `a` in
all training instances changes nothing. Training succeeds with and without it, and every instance is answered alike,
whatever value `b` of the column's type it has there. -/
theorem C189_tree_partial (hp : p ≤ ts.length) {data : IList ℝ} (hne : data ≠ [])
    (hts : ∀ x ∈ data, typesOf x = ts) (hbd : IndexBounded data) (a : Attr ℝ) (ha : ∀ v k m, a = .indexed v k m → k < m) :
    ∃ t t', treeTrain data none = .ok t ∧ treeTrain (data.map (insertColumn p a)) none = .ok t' ∧
      ∀ (x : Inst ℝ) (b : Attr ℝ), typesOf x = ts → typeOf b = typeOf a →
        treePredict t' (insertColumn p b x) = treePredict t x ∧
        t'.predictProbability (insertColumn p b x) = t.predictProbability x := by
  obtain ⟨t, t', h1, h2, _, _, h⟩ := grow_insert hp hne hts hbd a ha
  exact ⟨t, t', h1, h2, fun x b hx hb =>
    ⟨h.treePredict inserted_keeps ⟨hx, b, hb, rfl⟩, (h.answers inserted_keeps ⟨hx, b, hb, rfl⟩).2.2⟩⟩

/-- **C189** (part) Decision trees with pruning, the instances having been drawn in the same order. Some class must have
instances left for growing (C136). -/
theorem C189_pruned_tree_partial (hp : p ≤ ts.length) {data : IList ℝ} (hts : ∀ x ∈ data, typesOf x = ts)
    (hbd : IndexBounded data) (hpos : ∀ x ∈ data, x.isComposite = true → x.possibleLabels ≠ [])
    (a : Attr ℝ) (ha : ∀ v k m, a = .indexed v k m → k < m) {r : ℝ} (h0 : 0 < r) (h1 : r ≤ 1)
    {σ : List Nat} (hσ : IsPermutation σ data.length) {c : String}
    (hc : ⌈r * (data.map Inst.label).count c⌉₊ < (data.map Inst.label).count c) :
    ∃ t t', treeTrain data (some (r, σ)) = .ok t ∧ treeTrain (data.map (insertColumn p a)) (some (r, σ)) = .ok t' ∧
      ∀ (x : Inst ℝ) (b : Attr ℝ), typesOf x = ts → typeOf b = typeOf a →
        treePredict t' (insertColumn p b x) = treePredict t x ∧
        t'.predictProbability (insertColumn p b x) = t.predictProbability x := by
  obtain ⟨t, t', e1, e2, h⟩ := pruned_alike inserted_keeps (g := insertColumn p a) (fun _ => rfl) hts
    (fun x hx => typesOf_insert (hts x hx) a) (fun x hx => ⟨hts x hx, a, rfl, rfl⟩) hpos
    (fun q hq hqd => grow_insert hp hq (fun x hx => hts x (hqd x hx))
      (fun x hx y hy => hbd x (hqd x hx) y (hqd y hy)) a ha) h0 h1 hσ hc
  exact ⟨t, t', e1, e2, fun x b hx hb =>
    ⟨h.treePredict inserted_keeps ⟨hx, b, hb, rfl⟩, (h.answers inserted_keeps ⟨hx, b, hb, rfl⟩).2.2⟩⟩

/-- **C189** (part) Decision stumps -/
theorem C189_stump_partial (hp : p ≤ ts.length) {data : IList ℝ} (hne : data ≠ [])
    (hts : ∀ x ∈ data, typesOf x = ts) (hbd : IndexBounded data) (a : Attr ℝ) (ha : ∀ v k m, a = .indexed v k m → k < m) :
    ∃ t t', stumpTrain data = .ok t ∧ stumpTrain (data.map (insertColumn p a)) = .ok t' ∧
      ∀ (x : Inst ℝ) (b : Attr ℝ), typesOf x = ts → typeOf b = typeOf a →
        treePredict t' (insertColumn p b x) = treePredict t x ∧
        t'.predictProbability (insertColumn p b x) = t.predictProbability x := by
  obtain ⟨t, t', h1, h2, _, _, h⟩ := grow_insert hp hne hts hbd a ha
  exact ⟨t.top, t'.top, C159_stump_is_top h1, C159_stump_is_top h2, fun x b hx hb =>
    ⟨h.top.treePredict inserted_keeps ⟨hx, b, hb, rfl⟩, (h.top.answers inserted_keeps ⟨hx, b, hb, rfl⟩).2.2⟩⟩

/-- **C189** (part) Bagged trees, the same positions having been drawn -/
theorem C189_bagging_partial (hp : p ≤ ts.length) {data : IList ℝ} (hts : ∀ x ∈ data, typesOf x = ts)
    (hbd : IndexBounded data) (a : Attr ℝ) (ha : ∀ v k m, a = .indexed v k m → k < m) {draws : Nat → List Nat}
    (hd : ∀ i, draws i ≠ [] ∧ ∀ k ∈ draws i, k < data.length) (B : Int) :
    ∃ f f', ensembleTrain none draws [] data B = .ok f ∧
      ensembleTrain none draws [] (data.map (insertColumn p a)) B = .ok f' ∧
      ∀ (x : Inst ℝ) (b : Attr ℝ), typesOf x = ts → typeOf b = typeOf a →
        ensemblePredict f' (insertColumn p b x) = ensemblePredict f x ∧
        ensembleProbability f' (insertColumn p b x) = ensembleProbability f x := by
  obtain ⟨f, f', h1, h2, h3⟩ := bagged_alike (R := Inserted p ts (typeOf a)) (g := insertColumn p a) (data := data)
    (fun q hq hqd => by
      obtain ⟨t, t', e1, e2, _, _, e3⟩ := grow_insert hp hq (fun x hx => hts x (hqd x hx))
        (fun x hx y hy => hbd x (hqd x hx) y (hqd y hy)) a ha
      exact ⟨t, t', e1, e2, e3⟩) hd B
  exact ⟨f, f', h1, h2, fun x b hx hb => votes_alike inserted_keeps h3 ⟨hx, b, hb, rfl⟩⟩

end
end Verif
