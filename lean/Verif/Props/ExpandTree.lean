import Verif.Spec.Expand
import Verif.Props.TreeAlike

/-! # Property C202 for decision trees: an indexed attribute is as good as its columns of zeros and ones -/

set_option linter.unusedSectionVars false

namespace Verif
open Dbl

/-! ## positions of the columns -/

/-- where the part `i` begins if parts of the sizes `ws` follow each other -/
def offs : List Nat → Nat → Nat
  | [], _ => 0
  | _ :: _, 0 => 0
  | w :: ws, i + 1 => w + offs ws i

theorem offs_lt : ∀ (ws : List Nat) {i i' j w : Nat}, ws[i]? = some w → j < w → i < i' → offs ws i + j < offs ws i'
  | [], i, _, _, _, h, _, _ => by simp at h
  | w :: ws, 0, 0, _, _, _, _, h => by omega
  | w :: ws, 0, i' + 1, _, _, h, hj, _ => by
    simp only [List.getElem?_cons_zero, Option.some.injEq] at h
    simp only [offs]; omega
  | w :: ws, i + 1, 0, _, _, _, _, h => by omega
  | w :: ws, i + 1, i' + 1, _, _, h, hj, hi => by
    have := offs_lt ws (i := i) (i' := i') (by simpa using h) hj (by omega)
    simp only [offs]; omega

theorem flatMap_at {α β : Type} (f : α → List β) : ∀ (l : List α) {i j : Nat} {a : α}, l[i]? = some a → j < (f a).length →
    (l.flatMap f)[offs (l.map (fun a => (f a).length)) i + j]? = (f a)[j]?
  | [], i, _, _, h, _ => by simp at h
  | a :: l, 0, j, _, h, hj => by
    simp only [List.getElem?_cons_zero, Option.some.injEq] at h
    subst h
    rw [List.flatMap_cons, List.map_cons, show offs _ 0 = 0 from rfl, Nat.zero_add, List.getElem?_append_left hj]
  | b :: l, i + 1, j, a, h, hj => by
    have := flatMap_at f l (i := i) (by simpa using h) hj
    rw [List.flatMap_cons, List.map_cons, show offs (_ :: _) (i + 1) = (f b).length + offs _ i from rfl,
      List.getElem?_append_right (by omega), ← this]
    congr 1; omega

theorem flatMap_locate {α β : Type} (f : α → List β) : ∀ (l : List α) {p : Nat}, p < (l.flatMap f).length →
    ∃ (i j : Nat) (a : α), l[i]? = some a ∧ j < (f a).length ∧ p = offs (l.map (fun a => (f a).length)) i + j
  | [], p, h => by simp at h
  | a :: l, p, h => by
    by_cases hp : p < (f a).length
    · exact ⟨0, p, a, rfl, hp, by simp [offs]⟩
    · rw [List.flatMap_cons, List.length_append] at h
      obtain ⟨i, j, b, h1, h2, h3⟩ := flatMap_locate f l (p := p - (f a).length) (by omega)
      refine ⟨i + 1, j, b, by simpa using h1, h2, ?_⟩
      rw [List.map_cons, show offs (_ :: _) (i + 1) = (f a).length + offs _ i from rfl]
      omega

/-- the columns written out for a column -/
def columnTypes (c : AttrType × Nat) : List AttrType :=
  if c.1 = .discreteIndexed then List.replicate c.2 .continuous else [c.1]

/-- the types of the columns written out -/
def expandTypes (cs : List (AttrType × Nat)) : List AttrType := cs.flatMap columnTypes

/-- where column `i` begins after writing out -/
def place (cs : List (AttrType × Nat)) (i : Nat) : Nat := offs (cs.map (fun c => (columnTypes c).length)) i

section
variable {F : Type} [Dbl F] {cs : List (AttrType × Nat)}

theorem fits_types {c : AttrType × Nat} {a : Attr F} (h : FitsShape c a) : (expandAttr a).map typeOf = columnTypes c := by
  obtain ⟨h1, h2⟩ := h
  obtain ⟨t, w⟩ := c
  simp only at h1 h2
  subst h1
  cases a with
  | indexed v k m =>
    obtain ⟨rfl, _, _⟩ := h2 v k m rfl
    simp only [expandAttr, columnTypes, typeOf, if_true, Int.toNat_natCast, List.map_map]
    rw [List.eq_replicate_iff]
    refine ⟨by simp, ?_⟩
    intro b hb
    obtain ⟨_, _, rfl⟩ := List.mem_map.1 hb
    rfl
  | _ => simp [expandAttr, columnTypes, typeOf]

theorem fits_shape_length {c : AttrType × Nat} {a : Attr F} (h : FitsShape c a) : (expandAttr a).length = (columnTypes c).length := by
  rw [← fits_types h, List.length_map]

theorem shaped_types {x : Inst F} (h : Shaped cs x) : typesOf x = cs.map Prod.fst := by
  unfold Shaped at h
  unfold typesOf
  generalize x.attrs = as at h
  induction h with
  | nil => rfl
  | cons h _ ih => rw [List.map_cons, List.map_cons, h.1, ih]

theorem shaped_expand_types {x : Inst F} (h : Shaped cs x) : typesOf (expand x) = expandTypes cs := by
  unfold Shaped at h
  unfold typesOf expand expandTypes
  simp only
  generalize x.attrs = as at h
  induction h with
  | nil => rfl
  | cons h _ ih => rw [List.flatMap_cons, List.map_append, ih, List.flatMap_cons, fits_types h]

theorem shaped_lengths {x : Inst F} (h : Shaped cs x) :
    x.attrs.map (fun a => (expandAttr a).length) = cs.map (fun c => (columnTypes c).length) := by
  unfold Shaped at h
  generalize x.attrs = as at h
  induction h with
  | nil => rfl
  | cons h _ ih => rw [List.map_cons, List.map_cons, fits_shape_length h, ih]

theorem shaped_get {x : Inst F} (h : Shaped cs x) {i : Nat} {c : AttrType × Nat} (hc : cs[i]? = some c) :
    ∃ a, x.attrs[i]? = some a ∧ FitsShape c a := by
  unfold Shaped at h
  have hi := (List.getElem?_eq_some_iff.1 hc).1
  have hl := h.length_eq
  refine ⟨x.attrs[i]'(by omega), List.getElem?_eq_getElem _, ?_⟩
  have := (List.forall₂_iff_get.1 h).2 i hi (by omega)
  rw [← (List.getElem?_eq_some_iff.1 hc).2]
  exact this

/-- a column that is not indexed keeps its values -/
theorem expand_plain {x : Inst F} (h : Shaped cs x) {i : Nat} {c : AttrType × Nat} (hc : cs[i]? = some c)
    (ht : c.1 ≠ .discreteIndexed) : (expand x).attrs[place cs i]? = x.attrs[i]? := by
  obtain ⟨a, ha, hf⟩ := shaped_get h hc
  have hl : (expandAttr a).length = 1 := by
    rw [fits_shape_length hf]; unfold columnTypes; rw [if_neg ht]; rfl
  have := flatMap_at expandAttr x.attrs ha (j := 0) (by omega)
  rw [shaped_lengths h, Nat.add_zero] at this
  unfold place expand
  rw [this, ha]
  cases a with
  | indexed v k m => exact absurd hf.1.symm ht
  | _ => rfl

/-- an indexed column becomes columns of zeros and ones -/
theorem expand_indexed {x : Inst F} (h : Shaped cs x) {i m : Nat} (hc : cs[i]? = some (.discreteIndexed, m)) {j : Nat}
    (hj : j < m) : (expand x).attrs[place cs i + j]? =
      some (.continuous (if (j : Int) = idxValAt x i then Dbl.one else Dbl.zero)) := by
  obtain ⟨a, ha, hf⟩ := shaped_get h hc
  have hl : (expandAttr a).length = m := by
    rw [fits_shape_length hf]; simp [columnTypes]
  have := flatMap_at expandAttr x.attrs ha (j := j) (by omega)
  rw [shaped_lengths h] at this
  unfold place expand
  rw [this]
  cases a with
  | indexed v k m' =>
    obtain ⟨rfl, _, _⟩ := hf.2 v k m' rfl
    have : idxValAt x i = k := by unfold idxValAt; rw [ha]
    rw [this]
    simp only [expandAttr, Int.toNat_natCast]
    rw [List.getElem?_map, List.getElem?_range (by exact_mod_cast hj)]
    rfl
  | _ => exact absurd hf.1 (by simp [typeOf])

theorem shaped_index {x : Inst F} (h : Shaped cs x) {i m : Nat} (hc : cs[i]? = some (.discreteIndexed, m)) :
    0 ≤ idxValAt x i ∧ idxValAt x i < m := by
  obtain ⟨a, ha, hf⟩ := shaped_get h hc
  cases a with
  | indexed v k m' =>
    obtain ⟨e, h1, h2⟩ := hf.2 v k m' rfl
    have : idxValAt x i = k := by unfold idxValAt; rw [ha]
    rw [this]
    exact ⟨h1, by rw [← show m' = m from e]; exact h2⟩
  | _ => exact absurd hf.1 (by simp [typeOf])

theorem types_get {i : Nat} {t : AttrType} (h : (cs.map Prod.fst)[i]? = some t) : ∃ m, cs[i]? = some (t, m) := by
  rw [List.getElem?_map, Option.map_eq_some_iff] at h
  obtain ⟨⟨t', m⟩, h1, rfl⟩ := h
  exact ⟨m, h1⟩

theorem place_types {i j : Nat} {c : AttrType × Nat} (hc : cs[i]? = some c) (hj : j < (columnTypes c).length) :
    (expandTypes cs)[place cs i + j]? = (columnTypes c)[j]? :=
  flatMap_at columnTypes cs hc hj

theorem place_lt {i i' j : Nat} {c : AttrType × Nat} (hc : cs[i]? = some c) (hj : j < (columnTypes c).length) (hi : i < i') :
    place cs i + j < place cs i' :=
  offs_lt _ (by rw [List.getElem?_map, hc]; rfl) hj hi

end

/-! ## the splits -/

theorem condEntropy_injective {κ μ : Type} [DecidableEq κ] [DecidableEq μ] (data : IList ℝ) (key : Inst ℝ → κ) (f : κ → μ)
    (hf : Function.Injective f) : condEntropy data (fun x => f (key x)) = condEntropy data key := by
  unfold condEntropy
  have h : (data.map (fun x => f (key x))).toFinset = (data.map key).toFinset.map ⟨f, hf⟩ := by
    ext a
    simp only [List.mem_toFinset, List.mem_map, Finset.mem_map, Function.Embedding.coeFn_mk]
    constructor
    · rintro ⟨x, hx, rfl⟩; exact ⟨key x, ⟨x, hx, rfl⟩, rfl⟩
    · rintro ⟨_, ⟨x, hx, rfl⟩, rfl⟩; exact ⟨x, hx, rfl⟩
  rw [h, Finset.sum_map]
  simp only [Function.Embedding.coeFn_mk, hf.eq_iff]

/-- the same split of the data written out: asking for an index is asking whether its column is above 1/2 -/
noncomputable def Split.written (cs : List (AttrType × Nat)) : Split → Split
  | .discrete i => .discrete (place cs i)
  | .indexed i k => .threshold (place cs i + k.toNat) (1 / 2)
  | .threshold i t => .threshold (place cs i) t

section
variable {cs : List (AttrType × Nat)} {data : IList ℝ}

theorem expand_cont {x : Inst ℝ} (h : Shaped cs x) {i m : Nat} (hc : cs[i]? = some (.discreteIndexed, m)) {j : Nat}
    (hj : j < m) : contValAt (expand x) (place cs i + j) = if (j : Int) = idxValAt x i then 1 else 0 := by
  unfold contValAt
  rw [expand_indexed h hc hj]
  dsimp only
  rw [one_real, zero_real]

theorem expand_values {x : Inst ℝ} (h : Shaped cs x) {i : Nat} {c : AttrType × Nat} (hc : cs[i]? = some c)
    (ht : c.1 ≠ .discreteIndexed) :
    discValAt (expand x) (place cs i) = discValAt x i ∧ contValAt (expand x) (place cs i) = contValAt x i := by
  unfold discValAt contValAt
  rw [expand_plain h hc ht]
  exact ⟨rfl, rfl⟩

/-- an index that some instance has is one of the column -/
theorem candidate_index (hsh : ∀ x ∈ data, Shaped cs x) {i : Nat} {k : Int}
    (h : (Split.indexed i k).Candidate (cs.map Prod.fst) data) :
    ∃ m j : Nat, cs[i]? = some (.discreteIndexed, m) ∧ k = j ∧ j < m := by
  obtain ⟨ht, h0, x, hx, e⟩ := h
  obtain ⟨m, hm⟩ := types_get ht
  have := (shaped_index (hsh x hx) hm).2
  exact ⟨m, k.toNat, hm, by omega, by omega⟩

theorem entropy_written (hsh : ∀ x ∈ data, Shaped cs x) {S : Split} (hS : S.Candidate (cs.map Prod.fst) data) :
    (S.written cs).entropy (data.map expand) = S.entropy data := by
  classical
  cases S with
  | discrete i =>
    obtain ⟨m, hm⟩ := types_get hS
    unfold Split.entropy Split.written
    dsimp only
    exact condEntropy_map expand (fun _ => rfl) (fun x hx => (expand_values (hsh x hx) hm (by simp)).1)
  | threshold i t =>
    obtain ⟨m, hm⟩ := types_get hS.1
    unfold Split.entropy Split.written
    dsimp only
    exact condEntropy_map expand (fun _ => rfl) (fun x hx => by rw [(expand_values (hsh x hx) hm (by simp)).2])
  | indexed i k =>
    obtain ⟨m, j, hm, rfl, hj⟩ := candidate_index hsh hS
    unfold Split.entropy Split.written
    dsimp only
    rw [← condEntropy_injective data (fun x => decide (idxValAt x i = (j : Int))) not (by decide)]
    refine condEntropy_map expand (fun _ => rfl) (fun x hx => ?_)
    rw [Int.toNat_natCast, expand_cont (hsh x hx) hm hj]
    by_cases h : idxValAt x i = j
    · rw [if_pos h.symm, decide_eq_true h]; norm_num
    · rw [if_neg (fun e => h e.symm), decide_eq_false h]; norm_num

theorem candidate_written (hsh : ∀ x ∈ data, Shaped cs x) {S : Split} (hS : S.Candidate (cs.map Prod.fst) data)
    (hless : S.entropy data < shannon (data.map Inst.label)) :
    (S.written cs).Candidate (expandTypes cs) (data.map expand) := by
  classical
  cases S with
  | discrete i =>
    obtain ⟨m, hm⟩ := types_get hS
    have := place_types hm (j := 0) (by simp [columnTypes])
    exact this.trans (by simp [columnTypes])
  | threshold i t =>
    obtain ⟨ht, x, hx, y, hy, h1, h2, h3⟩ := hS
    obtain ⟨m, hm⟩ := types_get ht
    have hv : ∀ z ∈ data, contValAt (expand z) (place cs i) = contValAt z i :=
      fun z hz => (expand_values (hsh z hz) hm (by simp)).2
    refine ⟨(place_types hm (j := 0) (by simp [columnTypes])).trans (by simp [columnTypes]), expand x,
      List.mem_map_of_mem hx, expand y, List.mem_map_of_mem hy, ?_, ?_, ?_⟩
    · rw [hv x hx, hv y hy]; exact h1
    · intro z hz
      obtain ⟨z, hzm, rfl⟩ := List.mem_map.1 hz
      replace hz := hzm
      rw [hv x hx, hv y hy, hv z hz]; exact h2 z hz
    · rw [hv x hx, hv y hy]; exact h3
  | indexed i k =>
    obtain ⟨m, j, hm, rfl, hj⟩ := candidate_index hsh hS
    obtain ⟨ht, h0, y, hy, e⟩ := hS
    obtain ⟨x, hx, hne⟩ : ∃ x ∈ data, idxValAt x i ≠ j := by
      by_contra hall
      push Not at hall
      refine absurd hless (not_lt.2 (le_of_eq ?_))
      unfold Split.entropy
      dsimp only
      exact (condEntropy_one data _ true (fun x hx => decide_eq_true (hall x hx))).symm
    have hv : ∀ z ∈ data, contValAt (expand z) (place cs i + j) = if (j : Int) = idxValAt z i then 1 else 0 :=
      fun z hz => expand_cont (hsh z hz) hm hj
    simp only [Split.written, Int.toNat_natCast]
    have hjl : j < (columnTypes (.discreteIndexed, m)).length := by simpa [columnTypes] using hj
    have hx0 := hv x hx
    have hy1 := hv y hy
    rw [if_neg (fun h => hne h.symm)] at hx0
    rw [if_pos e.symm] at hy1
    refine ⟨(place_types hm hjl).trans (by simp [columnTypes, hj]), expand x,
      List.mem_map_of_mem hx, expand y, List.mem_map_of_mem hy, ?_, ?_, ?_⟩
    · rw [hx0, hy1]; norm_num
    · intro z hz
      obtain ⟨z, hzm, rfl⟩ := List.mem_map.1 hz
      replace hz := hzm
      rw [hx0, hy1, hv z hz]
      by_cases h : (j : Int) = idxValAt z i
      · rw [if_pos h]; right; norm_num
      · rw [if_neg h]; left; norm_num
    · rw [hx0, hy1]; norm_num

/-- every split of the data written out is one of these -/
theorem candidate_unwritten (hsh : ∀ x ∈ data, Shaped cs x) {T : Split} (hT : T.Candidate (expandTypes cs) (data.map expand)) :
    ∃ S : Split, S.Candidate (cs.map Prod.fst) data ∧ T = S.written cs := by
  have hloc : ∃ (i j : Nat) (c : AttrType × Nat), cs[i]? = some c ∧ j < (columnTypes c).length ∧ T.attr = place cs i + j :=
    flatMap_locate columnTypes cs (candidate_lt hT)
  obtain ⟨i, j, ⟨t, m⟩, hc, hj, hp⟩ := hloc
  have hty := place_types hc hj
  have hti : (cs.map Prod.fst)[i]? = some t := by rw [List.getElem?_map, hc]; rfl
  by_cases ht : t = .discreteIndexed
  · subst ht
    have hjm : j < m := by simpa [columnTypes] using hj
    have hcol : (expandTypes cs)[place cs i + j]? = some .continuous := hty.trans (by simp [columnTypes, hjm])
    cases T with
    | discrete p => simp only [Split.attr] at hp; subst hp; rw [show (expandTypes cs)[place cs i + j]? = _ from hT] at hcol; cases hcol
    | indexed p k => simp only [Split.attr] at hp; subst hp; rw [hT.1] at hcol; cases hcol
    | threshold p u =>
      simp only [Split.attr] at hp
      subst hp
      obtain ⟨_, x, hx, y, hy, h1, _, h3⟩ := hT
      obtain ⟨x, hxm, rfl⟩ := List.mem_map.1 hx
      obtain ⟨y, hym, rfl⟩ := List.mem_map.1 hy
      replace hx := hxm
      replace hy := hym
      rw [expand_cont (hsh x hx) hc hjm, expand_cont (hsh y hy) hc hjm] at h1 h3
      by_cases hx1 : (j : Int) = idxValAt x i
      · rw [if_pos hx1] at h1
        split at h1 <;> norm_num at h1
      · by_cases hy1 : (j : Int) = idxValAt y i
        · refine ⟨.indexed i j, ⟨hti, by omega, y, hy, hy1.symm⟩, ?_⟩
          rw [if_neg hx1, if_pos hy1] at h3
          simp only [Split.written, Int.toNat_natCast, h3]
          norm_num
        · rw [if_neg hx1, if_neg hy1] at h1
          norm_num at h1
  · have hj0 : j = 0 := by
      unfold columnTypes at hj
      rw [if_neg ht] at hj
      simpa using hj
    subst hj0
    rw [Nat.add_zero] at hp hty
    have hcol : (expandTypes cs)[place cs i]? = some t := by rw [hty]; unfold columnTypes; rw [if_neg ht]; rfl
    cases T with
    | discrete p =>
      simp only [Split.attr] at hp; subst hp
      have hT : (expandTypes cs)[place cs i]? = _ := hT
      rw [hT] at hcol; cases hcol
      exact ⟨.discrete i, hti, rfl⟩
    | indexed p k => simp only [Split.attr] at hp; subst hp; rw [hT.1] at hcol; cases hcol; exact absurd rfl ht
    | threshold p u =>
      simp only [Split.attr] at hp; subst hp
      rw [hT.1] at hcol; cases hcol
      refine ⟨.threshold i u, ⟨hti, ?_⟩, rfl⟩
      obtain ⟨_, x, hx, y, hy, h1, h2, h3⟩ := hT
      obtain ⟨x, hxm, rfl⟩ := List.mem_map.1 hx
      obtain ⟨y, hym, rfl⟩ := List.mem_map.1 hy
      replace hx := hxm
      replace hy := hym
      have hv : ∀ z ∈ data, contValAt (expand z) (place cs i) = contValAt z i :=
        fun z hz => (expand_values (hsh z hz) hc (by simp)).2
      rw [hv x hx, hv y hy] at h1 h3
      refine ⟨x, hx, y, hy, h1, fun z hz => ?_, h3⟩
      have := h2 _ (List.mem_map_of_mem hz)
      rwa [hv x hx, hv y hy, hv z hz] at this

theorem idxOf_range_self {n i : Nat} (h : i < n) : (List.range n).idxOf i = i := by
  have := List.nodup_range (n := n)
  have h1 : i < (List.range n).length := by simpa using h
  have := this.idxOf_getElem i h1
  simpa using this

theorem written_attr_lt (hsh : ∀ x ∈ data, Shaped cs x) {S : Split} (hS : S.Candidate (cs.map Prod.fst) data) :
    (S.written cs).attr < (expandTypes cs).length ∧ ∀ i, S.attr < i → (S.written cs).attr < place cs i := by
  have fin : ∀ {c : AttrType × Nat} {j : Nat}, cs[S.attr]? = some c → j < (columnTypes c).length →
      (S.written cs).attr = place cs S.attr + j →
      (S.written cs).attr < (expandTypes cs).length ∧ ∀ i, S.attr < i → (S.written cs).attr < place cs i := by
    intro c j hc hj e
    rw [e]
    refine ⟨?_, fun i hi => place_lt hc hj hi⟩
    have := place_types hc hj
    rw [List.getElem?_eq_getElem hj] at this
    exact (List.getElem?_eq_some_iff.1 this).1
  cases S with
  | discrete i =>
    obtain ⟨m, hm⟩ := types_get hS
    exact fin hm (j := 0) (by simp [columnTypes]) rfl
  | threshold i t =>
    obtain ⟨m, hm⟩ := types_get hS.1
    exact fin hm (j := 0) (by simp [columnTypes]) rfl
  | indexed i k =>
    obtain ⟨m, j, hm, rfl, hj⟩ := candidate_index hsh hS
    exact fin hm (j := j) (by simpa [columnTypes] using hj) (by simp [Split.written, Split.attr])

theorem place_le_written (S : Split) : place cs S.attr ≤ (S.written cs).attr := by
  cases S <;> simp [Split.written, Split.attr]

/-- the order in which the splits are tried is kept -/
theorem before_written (hsh : ∀ x ∈ data, Shaped cs x) {S T : Split} (hS : S.Candidate (cs.map Prod.fst) data)
    (hT : T.Candidate (cs.map Prod.fst) data) (h : Split.Before (List.range (cs.map Prod.fst).length) S T) :
    Split.Before (List.range (expandTypes cs).length) (S.written cs) (T.written cs) := by
  have col : S.attr < T.attr → Split.Before (List.range (expandTypes cs).length) (S.written cs) (T.written cs) := by
    intro hlt
    left
    rw [idxOf_range_self (written_attr_lt hsh hS).1, idxOf_range_self (written_attr_lt hsh hT).1]
    exact lt_of_lt_of_le ((written_attr_lt hsh hS).2 _ hlt) (place_le_written T)
  rcases h with h | ⟨i, k, k', rfl, rfl, hk⟩ | ⟨i, t, t', rfl, rfl, ht⟩
  · rw [idxOf_range_self (candidate_lt hS), idxOf_range_self (candidate_lt hT)] at h
    exact col h
  · left
    rw [idxOf_range_self (written_attr_lt hsh hS).1, idxOf_range_self (written_attr_lt hsh hT).1]
    have := hS.2.1
    simp only [Split.written, Split.attr]
    omega
  · exact .inr (.inr ⟨_, t, t', rfl, rfl, ht⟩)

theorem before_total {ts : List AttrType} {S T : Split} (hS : S.Candidate ts data) (hT : T.Candidate ts data) (hne : S ≠ T) :
    Split.Before (List.range ts.length) S T ∨ Split.Before (List.range ts.length) T S := by
  rcases lt_trichotomy S.attr T.attr with h | h | h
  · left; left; rw [idxOf_range_self (candidate_lt hS), idxOf_range_self (candidate_lt hT)]; exact h
  · cases S with
    | discrete i =>
      cases T with
      | discrete i' => simp only [Split.attr] at h; subst h; exact absurd rfl hne
      | indexed i' k =>
        simp only [Split.attr] at h; subst h
        have h1 : ts[i]? = _ := hS
        rw [hT.1] at h1; cases h1
      | threshold i' k =>
        simp only [Split.attr] at h; subst h
        have h1 : ts[i]? = _ := hS
        rw [hT.1] at h1; cases h1
    | indexed i k =>
      cases T with
      | discrete i' =>
        simp only [Split.attr] at h; subst h
        have h1 : ts[i]? = _ := hT
        rw [hS.1] at h1; cases h1
      | indexed i' k' =>
        simp only [Split.attr] at h; subst h
        rcases lt_trichotomy k k' with h | h | h
        · exact .inl (.inr (.inl ⟨i, k, k', rfl, rfl, h⟩))
        · subst h; exact absurd rfl hne
        · exact .inr (.inr (.inl ⟨i, k', k, rfl, rfl, h⟩))
      | threshold i' k' =>
        simp only [Split.attr] at h; subst h
        have h1 := hT.1
        rw [hS.1] at h1; cases h1
    | threshold i k =>
      cases T with
      | discrete i' =>
        simp only [Split.attr] at h; subst h
        have h1 : ts[i]? = _ := hT
        rw [hS.1] at h1; cases h1
      | indexed i' k' =>
        simp only [Split.attr] at h; subst h
        have h1 := hT.1
        rw [hS.1] at h1; cases h1
      | threshold i' k' =>
        simp only [Split.attr] at h; subst h
        rcases lt_trichotomy k k' with h | h | h
        · exact .inl (.inr (.inr ⟨i, k, k', rfl, rfl, h⟩))
        · subst h; exact absurd rfl hne
        · exact .inr (.inr (.inr ⟨i, k', k, rfl, rfl, h⟩))
  · right; left; rw [idxOf_range_self (candidate_lt hS), idxOf_range_self (candidate_lt hT)]; exact h

/-! ## the branches -/

theorem satisfy_written {x : Inst ℝ} {i j : Nat} (h : (expand x).attrs[j]? = x.attrs[i]?) (c : Cond ℝ) (hc : c.attr = i) :
    Cond.satisfy { c with attr := (j : Int) } (expand x) = c.satisfy x := by
  obtain ⟨a, cmp, v⟩ := c
  simp only at hc
  subst hc
  have hat : Cond.attrOf ⟨(j : Int), cmp, v⟩ (expand x) = Cond.attrOf ⟨(i : Int), cmp, v⟩ x := by
    unfold Cond.attrOf
    simp only [Int.not_ofNat_neg, if_false, Int.toNat_natCast, Inst.getAttribute, atR, h]
  unfold Cond.satisfy
  simp only [hat]

/-- a branch, for the data written out -/
noncomputable def writeBranch (j : Nat) (b : Cond ℝ × IList ℝ) : Cond ℝ × IList ℝ := ({ b.1 with attr := j }, b.2.map expand)

theorem perm_filter_expand {p : IList ℝ} {f f' : Inst ℝ → Bool} (h : p.Perm (data.filter f))
    (hf : ∀ x ∈ data, f' (expand x) = f x) : (p.map expand).Perm ((data.map expand).filter f') := by
  rw [List.filter_map]
  have : data.filter (f' ∘ expand) = data.filter f := List.filter_congr (fun x hx => hf x hx)
  rw [this]
  exact h.map _

/-- the branches that `x` and the written-out `x` take have the same data -/
def BranchesAgree (bs bs' : List (Cond ℝ × IList ℝ)) (x : Inst ℝ) : Prop :=
  ((∀ b ∈ bs, b.1.satisfy x = .ok false) ↔ ∀ b ∈ bs', b.1.satisfy (expand x) = .ok false) ∧
  ∀ (k k' : Nat) b b', FirstOf bs x k b → FirstOf bs' (expand x) k' b' → b'.2.Perm (b.2.map expand)

theorem agree_of_write {S' : Split} {ts' : List AttrType} {data' : IList ℝ} (hS' : S'.Candidate ts' data')
    {bs bs' : List (Cond ℝ × IList ℝ)} {i j : Nat} (hat : ∀ b ∈ bs, b.1.attr = i)
    (hw : S'.Branches data' (bs.map (writeBranch j))) (hbs' : S'.Branches data' bs') {x : Inst ℝ}
    (hx : (expand x).attrs[j]? = x.attrs[i]?) (hx' : typesOf (expand x) = ts') : BranchesAgree bs bs' x := by
  obtain ⟨m1, m2⟩ := branches_match hS' hw hbs' (expand x) hx'
  have hs : ∀ b ∈ bs, (writeBranch j b).1.satisfy (expand x) = b.1.satisfy x :=
    fun b hb => satisfy_written hx b.1 (hat b hb)
  refine ⟨?_, ?_⟩
  · rw [← m1]
    constructor
    · intro h b hb
      obtain ⟨q, hq, rfl⟩ := List.mem_map.1 hb
      rw [hs q hq]; exact h q hq
    · intro h b hb
      rw [← hs b hb]; exact h _ (List.mem_map_of_mem hb)
  · intro k k' b b' hf hf'
    obtain ⟨h1, h2, h3⟩ := hf
    refine ((m2 k k' (writeBranch j b) b' ⟨by rw [List.getElem?_map, h1]; rfl, ?_, ?_⟩ hf').1).symm
    · rw [hs b (List.mem_of_getElem? h1)]; exact h2
    · intro l hl q hq
      rw [List.getElem?_map, Option.map_eq_some_iff] at hq
      obtain ⟨q, hq, rfl⟩ := hq
      rw [hs q (List.mem_of_getElem? hq)]; exact h3 l hl q hq

theorem firstOf_pair {c d : Cond ℝ} {p q : IList ℝ} {x : Inst ℝ} {k : Nat} {b : Cond ℝ × IList ℝ}
    (h : FirstOf [(c, p), (d, q)] x k b) :
    (c.satisfy x = .ok true ∧ b = (c, p)) ∨ (c.satisfy x = .ok false ∧ b = (d, q)) := by
  obtain ⟨h1, h2, h3⟩ := h
  match k, h1 with
  | 0, h1 =>
    simp only [List.getElem?_cons_zero, Option.some.injEq] at h1
    subst h1
    exact .inl ⟨h2, rfl⟩
  | 1, h1 =>
    simp only [List.getElem?_cons_succ, List.getElem?_cons_zero, Option.some.injEq] at h1
    subst h1
    exact .inr ⟨h3 0 (by omega) _ rfl, rfl⟩
  | k + 2, h1 => simp at h1

theorem branches_written (hsh : ∀ x ∈ data, Shaped cs x) {data' : IList ℝ} (hp : data'.Perm (data.map expand)) {S : Split}
    (hS : S.Candidate (cs.map Prod.fst) data) (hS' : (S.written cs).Candidate (expandTypes cs) data')
    {bs bs' : List (Cond ℝ × IList ℝ)} (hbs : S.Branches data bs) (hbs' : (S.written cs).Branches data' bs')
    {x : Inst ℝ} (hx : Shaped cs x) : BranchesAgree bs bs' x := by
  classical
  cases S with
  | discrete i =>
    obtain ⟨m, hm⟩ := types_get hS
    refine agree_of_write hS' (i := i) (j := place cs i) (branches_attr hbs) ?_ hbs' (expand_plain hx hm (by simp))
      (shaped_expand_types hx)
    refine branches_perm hp.symm _ _ ?_
    obtain ⟨vs, h1, h2, h3⟩ := hbs
    refine ⟨vs, h1, ?_, ?_⟩
    · intro a
      rw [h2 a, List.map_map]
      refine Iff.of_eq (congrArg (a ∈ ·) (List.map_congr_left (fun x hx => ?_)))
      exact (expand_values (hsh x hx) hm (by simp)).1.symm
    · rw [List.forall₂_map_right_iff]
      refine h3.imp (fun a b hab => ⟨?_, ?_⟩)
      · simp only [writeBranch, hab.1]
      · exact perm_filter_expand hab.2 (fun x hx => by rw [(expand_values (hsh x hx) hm (by simp)).1])
  | threshold i t =>
    obtain ⟨m, hm⟩ := types_get hS.1
    refine agree_of_write hS' (i := i) (j := place cs i) (branches_attr hbs) ?_ hbs' (expand_plain hx hm (by simp))
      (shaped_expand_types hx)
    refine branches_perm hp.symm _ _ ?_
    obtain ⟨p, q, rfl, h1, h2⟩ := hbs
    refine ⟨p.map expand, q.map expand, rfl, ?_, ?_⟩
    · exact perm_filter_expand h1 (fun x hx => by rw [(expand_values (hsh x hx) hm (by simp)).2])
    · exact perm_filter_expand h2 (fun x hx => by rw [(expand_values (hsh x hx) hm (by simp)).2])
  | indexed i k =>
    obtain ⟨m, j, hm, rfl, hj⟩ := candidate_index hsh hS
    obtain ⟨p, q, w, rfl, h1, h2⟩ := hbs
    simp only [Split.written, Int.toNat_natCast] at hbs'
    obtain ⟨p', q', rfl, h1', h2'⟩ := hbs'
    obtain ⟨s, hs⟩ : ∃ s w, x.attrs[i]? = some (.indexed s (idxValAt x i) w) := by
      obtain ⟨a, ha, hf⟩ := shaped_get hx hm
      cases a with
      | indexed v k m' =>
        have : idxValAt x i = k := by unfold idxValAt; rw [ha]
        exact ⟨v, m', by rw [this]; exact ha⟩
      | _ => exact absurd hf.1 (by simp [typeOf])
    have hi : IndexAt x i (idxValAt x i) := ⟨s, hs⟩
    have hcx : ContAt (expand x) (place cs i + j) (if (j : Int) = idxValAt x i then 1 else 0) := by
      have := expand_indexed hx hm hj
      rw [one_real, zero_real] at this
      exact this
    have hv : ∀ z ∈ data, contValAt (expand z) (place cs i + j) = if (j : Int) = idxValAt z i then 1 else 0 :=
      fun z hz => expand_cont (hsh z hz) hm hj
    have s0 := satisfy_indexed (m := w) hi (show (j : Int) ≠ -1 by omega)
    have t0 := (satisfy_threshold (t := (1 / 2 : ℝ)) hcx).1
    have t1 := (satisfy_threshold (t := (1 / 2 : ℝ)) hcx).2
    have pq : q'.Perm (p.map expand) := by
      refine h2'.trans (((hp.filter _).trans ?_))
      refine (perm_filter_expand h1 (fun z hz => ?_)).symm
      rw [hv z hz]
      by_cases h : idxValAt z i = j
      · rw [if_pos h.symm, decide_eq_true h]; norm_num
      · rw [if_neg (fun e => h e.symm), decide_eq_false h]; norm_num
    have qp : p'.Perm (q.map expand) := by
      refine h1'.trans (((hp.filter _).trans ?_))
      refine (perm_filter_expand h2 (fun z hz => ?_)).symm
      rw [hv z hz]
      by_cases h : idxValAt z i = j
      · rw [if_pos h.symm, decide_eq_false (p := idxValAt z i ≠ j) (fun e => e h)]; norm_num
      · rw [if_neg (fun e => h e.symm), decide_eq_true (p := idxValAt z i ≠ j) h]; norm_num
    constructor
    · constructor
      · intro h
        have := h _ (List.mem_cons_of_mem _ List.mem_cons_self)
        rw [satisfy_other] at this; cases this
      · intro h
        have a0 := h _ List.mem_cons_self
        have a1 := h _ (List.mem_cons_of_mem _ List.mem_cons_self)
        dsimp only at a0 a1
        rw [t0] at a0
        rw [t1] at a1
        simp only [le_real, lt_real, Except.ok.injEq, decide_eq_false_iff_not, not_le, not_lt] at a0 a1
        exact absurd a0 (not_lt.2 a1)
    · intro l l' b b' hf hf'
      by_cases h : idxValAt x i = j
      · rw [decide_eq_true h] at s0
        rw [if_pos h.symm] at t0
        have t0 : Cond.satisfy _ (expand x) = .ok false := t0.trans (by simp; norm_num)
        rcases firstOf_pair hf with ⟨_, rfl⟩ | ⟨e, _⟩
        · rcases firstOf_pair hf' with ⟨e, _⟩ | ⟨_, rfl⟩
          · rw [t0] at e; cases e
          · exact pq
        · rw [s0] at e; cases e
      · rw [decide_eq_false h] at s0
        rw [if_neg (fun e => h e.symm)] at t0
        have t0 : Cond.satisfy _ (expand x) = .ok true := t0.trans (by simp)
        rcases firstOf_pair hf with ⟨e, _⟩ | ⟨_, rfl⟩
        · rw [s0] at e; cases e
        · rcases firstOf_pair hf' with ⟨_, rfl⟩ | ⟨e, _⟩
          · exact qp
          · rw [t0] at e; cases e

/-! ## the trees -/

theorem written_split (hsh : ∀ x ∈ data, Shaped cs x) {data' : IList ℝ} (hp : data'.Perm (data.map expand)) {S S' : Split}
    (hS : S.Candidate (cs.map Prod.fst) data) (hless : S.entropy data < shannon (data.map Inst.label))
    (hmin : ∀ T, Considered (cs.map Prod.fst) (List.range (cs.map Prod.fst).length) data T → S.entropy data ≤ T.entropy data)
    (hfirst : ∀ T, Considered (cs.map Prod.fst) (List.range (cs.map Prod.fst).length) data T →
      Split.Before (List.range (cs.map Prod.fst).length) T S → S.entropy data < T.entropy data)
    (hS' : S'.Candidate (expandTypes cs) data')
    (hmin' : ∀ T, Considered (expandTypes cs) (List.range (expandTypes cs).length) data' T → S'.entropy data' ≤ T.entropy data')
    (hfirst' : ∀ T, Considered (expandTypes cs) (List.range (expandTypes cs).length) data' T →
      Split.Before (List.range (expandTypes cs).length) T S' → S'.entropy data' < T.entropy data') :
    S' = S.written cs := by
  obtain ⟨S1, hS1, rfl⟩ := candidate_unwritten hsh ((candidate_perm hp S').1 hS')
  have hall : ∀ {ts : List AttrType} {D : IList ℝ} {T : Split}, T.Candidate ts D →
      Considered ts (List.range ts.length) D T := fun hT => ⟨hT, List.mem_range.2 (candidate_lt hT)⟩
  have e1 : (S1.written cs).entropy data' = S1.entropy data := (Split.entropy_perm hp _).trans (entropy_written hsh hS1)
  have e2 : (S.written cs).entropy data' = S.entropy data := (Split.entropy_perm hp _).trans (entropy_written hsh hS)
  have hw := (candidate_perm hp _).2 (candidate_written hsh hS hless)
  have h1 := hmin S1 (hall hS1)
  have h2 := hmin' _ (hall hw)
  rw [e1, e2] at h2
  by_contra hne
  have hne' : S1 ≠ S := fun e => hne (by rw [e])
  rcases before_total hS1 hS hne' with hb | hb
  · have := hfirst S1 (hall hS1) hb
    linarith
  · have := hfirst' _ (hall hw) (before_written hsh hS hS1 hb)
    rw [e1, e2] at this
    linarith

theorem labels_expand_perm {data' : IList ℝ} (hp : data'.Perm (data.map expand)) :
    (data'.map Inst.label).Perm (data.map Inst.label) := by
  have := hp.map Inst.label
  rwa [List.map_map, show Inst.label ∘ expand = (Inst.label : Inst ℝ → String) from rfl] at this

theorem mixed_labels {data data' : IList ℝ} (hp : (data'.map Inst.label).Perm (data.map Inst.label)) :
    (∃ x ∈ data', ∃ y ∈ data', x.label ≠ y.label) ↔ ∃ x ∈ data, ∃ y ∈ data, x.label ≠ y.label := by
  have key : ∀ D : IList ℝ, (∃ x ∈ D, ∃ y ∈ D, x.label ≠ y.label) ↔
      ∃ a ∈ D.map Inst.label, ∃ b ∈ D.map Inst.label, a ≠ b := by
    intro D; simp
  rw [key, key]
  simp only [hp.mem_iff]

theorem together_written (hsh : ∀ x ∈ data, Shaped cs x) {S : Split} (hS : S.Candidate (cs.map Prod.fst) data)
    {x y : Inst ℝ} (hx : Shaped cs x) (hy : Shaped cs y) :
    (S.written cs).Together (expand x) (expand y) ↔ S.Together x y := by
  cases S with
  | discrete i =>
    obtain ⟨m, hm⟩ := types_get hS
    show discValAt (expand x) (place cs i) = discValAt (expand y) (place cs i) ↔ _
    rw [(expand_values hx hm (by simp)).1, (expand_values hy hm (by simp)).1]
    rfl
  | threshold i t =>
    obtain ⟨m, hm⟩ := types_get hS.1
    show (contValAt (expand x) (place cs i) ≤ t ↔ contValAt (expand y) (place cs i) ≤ t) ↔ _
    rw [(expand_values hx hm (by simp)).2, (expand_values hy hm (by simp)).2]
    rfl
  | indexed i k =>
    obtain ⟨m, j, hm, rfl, hj⟩ := candidate_index hsh hS
    have key : ∀ {z : Inst ℝ}, Shaped cs z → (contValAt (expand z) (place cs i + j) ≤ 1 / 2 ↔ ¬ idxValAt z i = j) := by
      intro z hz
      rw [expand_cont hz hm hj]
      by_cases h : idxValAt z i = j
      · rw [if_pos h.symm]; simp only [h, not_true, iff_false, not_le]; norm_num
      · rw [if_neg (fun e => h e.symm)]; simp only [h, not_false_eq_true, iff_true]; norm_num
    show (contValAt (expand x) (place cs i + (j : Int).toNat) ≤ 1 / 2 ↔
      contValAt (expand y) (place cs i + (j : Int).toNat) ≤ 1 / 2) ↔ (idxValAt x i = j ↔ idxValAt y i = j)
    rw [Int.toNat_natCast, key hx, key hy]
    exact not_iff_not

/-- an instance and the same instance written out -/
def Written (cs : List (AttrType × Nat)) (x x' : Inst ℝ) : Prop := Shaped cs x ∧ x' = expand x

theorem written_keeps : KeepsClass (Written cs) := by
  rintro x x' ⟨_, rfl⟩
  exact ⟨rfl, rfl⟩

theorem alike_written {n : Node ℝ}
    (ho : OptimalTree (Considered (cs.map Prod.fst) (List.range (cs.map Prod.fst).length))
      (Split.Before (List.range (cs.map Prod.fst).length)) data n) :
    ∀ (data' : IList ℝ) (n' : Node ℝ),
      OptimalTree (Considered (expandTypes cs) (List.range (expandTypes cs).length))
        (Split.Before (List.range (expandTypes cs).length)) data' n' →
      data'.Perm (data.map expand) → (∀ x ∈ data, Shaped cs x) → DefOn (cs.map Prod.fst) n → DefOn (expandTypes cs) n' →
      Alike (Written cs) n n' := by
  induction ho with
  | pure data c lab d hne hlab hd h =>
    intro data' n' ho' hp hsh _ _
    have hlp := labels_expand_perm hp
    have hnm : ¬ ∃ x ∈ data', ∃ y ∈ data', x.label ≠ y.label := by
      rw [mixed_labels hlp]
      rintro ⟨x, hx, y, hy, hne⟩; exact hne (h x hx y hy)
    cases ho' with
    | pure _ c' lab' d' _ hlab' hd' _ =>
      have e1 := majority_determined hlab' hlab hlp
      have e2 := counts_determined hd' hd hlp
      subst e1 e2
      exact leaf_alike _ _ _ _ _
    | stop _ _ _ _ _ _ hm _ => exact absurd hm hnm
    | split _ _ _ _ _ _ _ _ _ hm => exact absurd hm hnm
  | stop data c lab d hlab hd hmixed h =>
    intro data' n' ho' hp hsh _ _
    have hlp := labels_expand_perm hp
    cases ho' with
    | pure _ c' lab' d' _ _ _ hp' =>
      obtain ⟨x, hx, y, hy, hne⟩ := (mixed_labels hlp).2 hmixed
      exact absurd (hp' x hx y hy) hne
    | stop _ c' lab' d' hlab' hd' _ _ =>
      have e1 := majority_determined hlab' hlab hlp
      have e2 := counts_determined hd' hd hlp
      subst e1 e2
      exact leaf_alike _ _ _ _ _
    | split _ c' lab' d' S' _ _ _ _ _ hS' hless' =>
      obtain ⟨S1, hS1, rfl⟩ := candidate_unwritten hsh ((candidate_perm hp S').1 hS'.1)
      have := h _ ⟨hS1, List.mem_range.2 (candidate_lt hS1)⟩
      rw [← entropy_written hsh hS1, ← Split.entropy_perm hp, ← shannon_perm hlp] at this
      exact absurd hless' (not_lt.2 this)
  | split data c lab d S bs ch hlab hd hmixed hS hless hmin hfirst hbs hlen hcond hch ih =>
    intro data' n' ho' hp hsh hdn hdn'
    have hlp := labels_expand_perm hp
    have hw := (candidate_perm hp _).2 (candidate_written hsh hS.1 hless)
    cases ho' with
    | pure _ c' lab' d' _ _ _ hp' =>
      obtain ⟨x, hx, y, hy, hne⟩ := (mixed_labels hlp).2 hmixed
      exact absurd (hp' x hx y hy) hne
    | stop _ c' lab' d' _ _ _ h' =>
      have := h' _ ⟨hw, List.mem_range.2 (candidate_lt hw)⟩
      rw [Split.entropy_perm hp, entropy_written hsh hS.1, shannon_perm hlp] at this
      exact absurd hless (not_lt.2 this)
    | split _ c' lab' d' S' bs' ch' hlab' hd' hmixed' hS' hless' hmin' hfirst' hbs' hlen' hcond' hch' =>
      have e1 := majority_determined hlab' hlab hlp
      have e2 := counts_determined hd' hd hlp
      subst e1 e2
      have hsame := written_split hsh hp hS.1 hless hmin hfirst hS'.1 hmin' hfirst'
      subst hsame
      cases hdn with
      | mk _ _ _ _ _ hdef hdch =>
      cases hdn' with
      | mk _ _ _ _ _ hdef' hdch' =>
      refine .mk _ _ _ _ _ _ _ ?_ ?_ ?_ ?_
      · rintro x _ ⟨hx, rfl⟩
        exact ⟨fun n hn => hdef n hn x (shaped_types hx), fun n hn => hdef' n hn _ (shaped_expand_types hx)⟩
      · rintro x _ ⟨hx, rfl⟩
        rw [none_iff hlen hcond, none_iff hlen' hcond']
        exact (branches_written hsh hp hS.1 hw hbs hbs' hx).1
      · rintro x _ y _ k k' m m' ⟨hx, rfl⟩ ⟨hy, rfl⟩ hf hf'
        obtain ⟨b, hbk, hfo⟩ := firstIn_firstOf hlen hcond hf
        obtain ⟨b', hbk', hfo'⟩ := firstIn_firstOf hlen' hcond' hf'
        rw [firstOf_firstIn hlen hcond hbk hf.1, firstOf_firstIn hlen' hcond' hbk' hf'.1,
          together_firstOf hS.1 hbs (shaped_types hx) (shaped_types hy) hfo,
          together_firstOf hw hbs' (shaped_expand_types hx) (shaped_expand_types hy) hfo',
          together_written hsh hS.1 hx hy]
      · rintro x _ k k' m m' ⟨hx, rfl⟩ hf hf'
        obtain ⟨b, hbk, hfo⟩ := firstIn_firstOf hlen hcond hf
        obtain ⟨b', hbk', hfo'⟩ := firstIn_firstOf hlen' hcond' hf'
        exact ih k b m hbk hf.1 b'.2 m' (hch' k' b' m' hbk' hf'.1)
          ((branches_written hsh hp hS.1 hw hbs hbs' hx).2 _ _ _ _ hfo hfo')
          (fun y hy => hsh y (Split.Branches.subset hbs (List.mem_of_getElem? hbk) y hy))
          (hdch m (List.mem_of_getElem? hf.1)) (hdch' m' (List.mem_of_getElem? hf'.1))

theorem shaped_bounded (hsh : ∀ x ∈ data, Shaped cs x) : IndexBounded data := by
  intro x hx y hy i v k m v' k' m' h1 h2
  have hi : i < cs.length := by
    rw [(hsh x hx).length_eq]; exact (List.getElem?_eq_some_iff.1 h1).1
  have hc := List.getElem?_eq_getElem hi
  obtain ⟨a, ha, hf⟩ := shaped_get (hsh x hx) hc
  obtain ⟨a', ha', hf'⟩ := shaped_get (hsh y hy) hc
  rw [h1] at ha; cases ha
  rw [h2] at ha'; cases ha'
  have := hf.2 v k m rfl
  have := hf'.2 v' k' m' rfl
  omega

theorem expand_bounded (data : IList ℝ) : IndexBounded (data.map expand) := by
  intro x hx y hy i v k m v' k' m' h1 _
  obtain ⟨x, _, rfl⟩ := List.mem_map.1 hx
  have := List.mem_of_getElem? h1
  obtain ⟨a, _, ha⟩ := List.mem_flatMap.1 this
  cases a with
  | indexed s l w =>
    obtain ⟨_, _, e⟩ := List.mem_map.1 ha
    cases e
  | _ => simp [expandAttr] at ha

theorem expand_typed (hsh : ∀ x ∈ data, Shaped cs x) : ∀ x ∈ data.map expand, typesOf x = expandTypes cs := by
  intro x hx
  obtain ⟨y, hy, rfl⟩ := List.mem_map.1 hx
  exact shaped_expand_types (hsh y hy)

theorem grow_written (hne : data ≠ []) (hsh : ∀ x ∈ data, Shaped cs x) :
    ∃ n n', Node.grow none false (data.length + 1) data Cond.root = .ok n ∧
      Node.grow none false ((data.map expand).length + 1) (data.map expand) Cond.root = .ok n' ∧
      DefOn (cs.map Prod.fst) n ∧ DefOn (expandTypes cs) n' ∧ Alike (Written cs) n n' := by
  have hv : ValidParam none := by intro _ _ h; cases h
  obtain ⟨n, hn, ho, _, hg, _⟩ := grow_ok hv (show Node.triedIndices none (cs.map Prod.fst).length =
    .ok (List.range (cs.map Prod.fst).length) from rfl) false (data.length + 1) data Cond.root hne
    (fun x hx => shaped_types (hsh x hx)) (by omega)
  obtain ⟨n', hn', ho', _, hg', _⟩ := grow_ok hv (show Node.triedIndices none (expandTypes cs).length =
    .ok (List.range (expandTypes cs).length) from rfl)
    false ((data.map expand).length + 1) (data.map expand) Cond.root (by simpa using hne) (expand_typed hsh) (by omega)
  exact ⟨n, n', hn, hn', hg.defOn, hg'.defOn, alike_written (ho rfl (shaped_bounded hsh)) _ n' (ho' rfl (expand_bounded data))
    (List.Perm.refl _) hsh hg.defOn hg'.defOn⟩

/-- **C202**: decision trees grown without pruning, in exact arithmetic: the same labels and class probabilities whether the
indexed attributes are left as they are or written out as columns of zeros and ones -/
theorem C202_tree_partial (hne : data ≠ []) (hsh : ∀ x ∈ data, Shaped cs x) :
    ∃ n n', treeTrain data none = .ok n ∧ treeTrain (data.map expand) none = .ok n' ∧
      ∀ x, Shaped cs x → treePredict n' (expand x) = treePredict n x ∧
        n'.predictProbability (expand x) = n.predictProbability x := by
  obtain ⟨n, n', h1, h2, _, _, h3⟩ := grow_written hne hsh
  exact ⟨n, n', h1, h2, fun x hx => ⟨h3.treePredict written_keeps ⟨hx, rfl⟩, (h3.answers written_keeps ⟨hx, rfl⟩).2.2⟩⟩

/-- **C202**: decision trees with pruning, the instances having been drawn in the same order. Some class must have instances
left for growing (C136). -/
theorem C202_pruned_tree_partial (hsh : ∀ x ∈ data, Shaped cs x)
    (hpos : ∀ x ∈ data, x.isComposite = true → x.possibleLabels ≠ []) {r : ℝ} (h0 : 0 < r) (h1 : r ≤ 1)
    {σ : List Nat} (hσ : IsPermutation σ data.length) {c : String}
    (hc : ⌈r * (data.map Inst.label).count c⌉₊ < (data.map Inst.label).count c) :
    ∃ n n', treeTrain data (some (r, σ)) = .ok n ∧ treeTrain (data.map expand) (some (r, σ)) = .ok n' ∧
      ∀ x, Shaped cs x → treePredict n' (expand x) = treePredict n x ∧
        n'.predictProbability (expand x) = n.predictProbability x := by
  obtain ⟨n, n', e1, e2, h⟩ := pruned_alike written_keeps (g := expand) (fun _ => rfl)
    (fun x hx => shaped_types (hsh x hx)) (fun x hx => shaped_expand_types (hsh x hx)) (fun x hx => ⟨hsh x hx, rfl⟩) hpos
    (fun q hq hqd => grow_written hq (fun x hx => hsh x (hqd x hx))) h0 h1 hσ hc
  exact ⟨n, n', e1, e2, fun x hx => ⟨h.treePredict written_keeps ⟨hx, rfl⟩, (h.answers written_keeps ⟨hx, rfl⟩).2.2⟩⟩

/-- **C202**: bagged trees, the same positions having been drawn -/
theorem C202_bagging_partial (hsh : ∀ x ∈ data, Shaped cs x) {draws : Nat → List Nat}
    (hd : ∀ i, draws i ≠ [] ∧ ∀ k ∈ draws i, k < data.length) (B : Int) :
    ∃ f f', ensembleTrain none draws [] data B = .ok f ∧ ensembleTrain none draws [] (data.map expand) B = .ok f' ∧
      ∀ x, Shaped cs x → ensemblePredict f' (expand x) = ensemblePredict f x ∧
        ensembleProbability f' (expand x) = ensembleProbability f x := by
  obtain ⟨f, f', h1, h2, h3⟩ := bagged_alike (R := Written cs) (g := expand) (data := data) (fun q hq hqd => by
    obtain ⟨n, n', e1, e2, _, _, e3⟩ := grow_written hq (fun x hx => hsh x (hqd x hx))
    exact ⟨n, n', e1, e2, e3⟩) hd B
  exact ⟨f, f', h1, h2, fun x hx => votes_alike written_keeps h3 ⟨hx, rfl⟩⟩

/-- **C202**: decision stumps -/
theorem C202_stump_partial (hne : data ≠ []) (hsh : ∀ x ∈ data, Shaped cs x) :
    ∃ n n', stumpTrain data = .ok n ∧ stumpTrain (data.map expand) = .ok n' ∧
      ∀ x, Shaped cs x → treePredict n' (expand x) = treePredict n x ∧
        n'.predictProbability (expand x) = n.predictProbability x := by
  obtain ⟨n, n', h1, h2, _, _, h3⟩ := grow_written hne hsh
  exact ⟨n.top, n'.top, C159_stump_is_top h1, C159_stump_is_top h2,
    fun x hx => ⟨h3.top.treePredict written_keeps ⟨hx, rfl⟩, (h3.top.answers written_keeps ⟨hx, rfl⟩).2.2⟩⟩

end

/-- the hypotheses of the theorems: four instances with a number, an indexed and a discrete value -/
def shapedExample : IList ℝ :=
  [⟨"a", [.continuous 2, .indexed "u" 0 3, .discrete "p"], none⟩, ⟨"b", [.continuous 5, .indexed "w" 2 3, .discrete "p"], none⟩,
   ⟨"a", [.continuous 4, .indexed "w" 2 3, .discrete "q"], none⟩, ⟨"b", [.continuous 3, .indexed "v" 1 3, .discrete "p"], none⟩]

theorem shapedExample_shaped :
    ∀ x ∈ shapedExample, Shaped [(.continuous, 0), (.discreteIndexed, 3), (.discrete, 0)] x := by
  intro x hx
  simp only [shapedExample, List.mem_cons, List.not_mem_nil, or_false] at hx
  rcases hx with rfl | rfl | rfl | rfl <;> simp [Shaped, FitsShape, typeOf]

example : ∃ n n', treeTrain shapedExample none = .ok n ∧ treeTrain (shapedExample.map expand) none = .ok n' ∧
    ∀ x, Shaped [(.continuous, 0), (.discreteIndexed, 3), (.discrete, 0)] x →
      treePredict n' (expand x) = treePredict n x ∧ n'.predictProbability (expand x) = n.predictProbability x :=
  C202_tree_partial (by simp [shapedExample]) shapedExample_shaped

example : ∃ n n', stumpTrain shapedExample = .ok n ∧ stumpTrain (shapedExample.map expand) = .ok n' ∧
    ∀ x, Shaped [(.continuous, 0), (.discreteIndexed, 3), (.discrete, 0)] x →
      treePredict n' (expand x) = treePredict n x ∧ n'.predictProbability (expand x) = n.predictProbability x :=
  C202_stump_partial (by simp [shapedExample]) shapedExample_shaped

example : ∃ n n', treeTrain shapedExample (some (1 / 2, [2, 0, 3, 1])) = .ok n ∧
    treeTrain (shapedExample.map expand) (some (1 / 2, [2, 0, 3, 1])) = .ok n' ∧
    ∀ x, Shaped [(.continuous, 0), (.discreteIndexed, 3), (.discrete, 0)] x →
      treePredict n' (expand x) = treePredict n x ∧ n'.predictProbability (expand x) = n.predictProbability x := by
  have hc : (shapedExample.map Inst.label).count "a" = 2 := by
    simp only [shapedExample, List.map_cons, List.map_nil]; decide
  exact C202_pruned_tree_partial shapedExample_shaped
    (by intro x hx; simp only [shapedExample, List.mem_cons, List.not_mem_nil, or_false] at hx
        rcases hx with rfl | rfl | rfl | rfl <;> simp [Inst.isComposite])
    (by norm_num) (by norm_num) (by unfold IsPermutation shapedExample; decide) (c := "a") (by rw [hc]; norm_num)

example : ∃ f f', ensembleTrain none (fun i => if i = 0 then [1, 0] else [1, 1, 3]) [] shapedExample 2 = .ok f ∧
    ensembleTrain none (fun i => if i = 0 then [1, 0] else [1, 1, 3]) [] (shapedExample.map expand) 2 = .ok f' ∧
    ∀ x, Shaped [(.continuous, 0), (.discreteIndexed, 3), (.discrete, 0)] x →
      ensemblePredict f' (expand x) = ensemblePredict f x ∧ ensembleProbability f' (expand x) = ensembleProbability f x :=
  C202_bagging_partial shapedExample_shaped (by intro i; split <;> simp [shapedExample]) 2

end Verif
