import Verif.Lemmas.Rename
import Mathlib.Data.List.Lex

/-! # Renaming the classes: from renamings of all strings to renamings of the names that occur -/

set_option linter.unusedSectionVars false

namespace Verif
open Dbl
variable {F : Type} [Dbl F]

/-- the characters `b … b a` with `k` times `b` -/
def rankMark (k : Nat) : List Char := List.replicate k 'b' ++ ['a']

theorem rankMark_lt {k m : Nat} (h : k < m) (r t : List Char) : rankMark k ++ r < rankMark m ++ t := by
  obtain ⟨n, rfl⟩ := Nat.exists_eq_add_of_lt h
  have e : rankMark (k + n + 1) ++ t = List.replicate k 'b' ++ ('b' :: (List.replicate n 'b' ++ 'a' :: t)) := by
    unfold rankMark
    rw [show k + n + 1 = k + (n + 1) from rfl, ← List.replicate_append_replicate, List.replicate_succ]
    simp
  have e' : rankMark k ++ r = List.replicate k 'b' ++ ('a' :: r) := by unfold rankMark; simp
  rw [e, e']
  refine List.Lex.append_left _ ?_ _
  exact List.Lex.rel (by decide)

/-- how many of the names come before or at `x` -/
def rankIn (S : List String) (x : String) : Nat := S.countP (fun s => decide (s ≤ x))

/-- an order preserving map of all strings that knows the names in `S` only by their rank -/
def embed (S : List String) (c : List Char) (x : String) : String :=
  if x = "" then "" else if x ∈ S then String.ofList (rankMark (rankIn S x))
  else String.ofList (rankMark (rankIn S x) ++ (c ++ x.toList))

theorem rankIn_mono (S : List String) {x y : String} (h : x < y) : rankIn S x ≤ rankIn S y := by
  refine List.countP_mono_left (fun s _ hs => ?_)
  simp only [decide_eq_true_eq] at *
  exact le_trans hs h.le

theorem rankIn_lt (S : List String) {x y : String} (h : x < y) (hy : y ∈ S) : rankIn S x < rankIn S y := by
  induction S with
  | nil => simp at hy
  | cons s S ih =>
    have hm := rankIn_mono S h
    unfold rankIn at *
    rw [List.countP_cons, List.countP_cons]
    rcases List.mem_cons.1 hy with rfl | hy
    · simp only [decide_eq_true_eq, le_refl, if_true, not_le.2 h, if_false]
      omega
    · have := ih hy
      by_cases h1 : s ≤ x
      · simp only [decide_eq_true_eq, h1, h1.trans h.le, if_true]; omega
      · simp only [decide_eq_true_eq, h1, if_false]; omega

theorem empty_lt {s : String} (h : s ≠ "") : "" < s := by
  rw [String.lt_iff_toList_lt]
  have : s.toList ≠ [] := by
    intro e
    exact h (String.toList_injective (by rw [e]; rfl))
  cases e : s.toList with
  | nil => exact absurd e this
  | cons a l => exact List.Lex.nil

theorem embed_ne_empty (S : List String) (c : List Char) {x : String} (h : x ≠ "") : embed S c x ≠ "" := by
  unfold embed rankMark
  rw [if_neg h]
  intro e
  split_ifs at e <;> (have := congrArg String.toList e; simp at this)

theorem embed_order (S : List String) (c : List Char) : OrderRenaming (embed S c) := by
  refine ⟨fun x y h => ?_, by simp [embed]⟩
  have hy : y ≠ "" := by
    rintro rfl
    rw [String.lt_iff_toList_lt] at h
    simp at h
  by_cases hx : x = ""
  · subst hx
    rw [show embed S c "" = "" by simp [embed]]
    exact empty_lt (embed_ne_empty S c hy)
  have h' := String.lt_iff_toList_lt.1 h
  rw [String.lt_iff_toList_lt]
  unfold embed
  rw [if_neg hx, if_neg hy]
  rcases lt_or_eq_of_le (rankIn_mono S h) with hr | hr
  · split_ifs
    · simpa using rankMark_lt hr [] []
    · simpa using rankMark_lt hr [] (c ++ y.toList)
    · simpa using rankMark_lt hr (c ++ x.toList) []
    · simpa using rankMark_lt hr (c ++ x.toList) (c ++ y.toList)
  · have hyS : y ∉ S := fun hm => absurd hr (ne_of_lt (rankIn_lt S h hm))
    rw [if_neg hyS, hr]
    split_ifs
    · rw [String.toList_ofList, String.toList_ofList]
      conv_lhs => rw [← List.append_nil (rankMark _)]
      refine List.Lex.append_left _ ?_ _
      cases e : c ++ y.toList with
      | nil =>
        rw [List.append_eq_nil_iff] at e
        rw [e.2] at h'
        simp at h'
      | cons a l => exact List.Lex.nil
    · rw [String.toList_ofList, String.toList_ofList]
      exact List.Lex.append_left _ (List.Lex.append_left _ h' _) _

theorem embed_eq {S : List String} {p : String} (h : embed S [] p = embed S ['c'] p) : p = "" ∨ p ∈ S := by
  by_contra hn
  rw [not_or] at hn
  unfold embed at h
  rw [if_neg hn.1, if_neg hn.1, if_neg hn.2, if_neg hn.2] at h
  have := congrArg (fun s => s.toList.length) h
  simp at this

theorem embed_agree {S : List String} {p : String} (h : p = "" ∨ p ∈ S) (c d : List Char) : embed S c p = embed S d p := by
  unfold embed
  rcases h with rfl | h
  · simp
  · simp [h]

theorem embed_rename {f : String → String} {S : List String} (hk : KeepsOrder f S) {p : String} (h : p = "" ∨ p ∈ S) :
    embed (S.map f) [] (f p) = embed S [] p := by
  by_cases hp : p = ""
  · subst hp; rw [hk.empty]; simp [embed]
  have h : p ∈ S := by simpa [hp] using h
  unfold embed
  rw [if_neg hp, if_neg (hk.nonempty p h hp), if_pos h, if_pos (List.mem_map.2 ⟨p, h, rfl⟩)]
  congr 2
  unfold rankIn
  rw [List.countP_map]
  refine List.countP_congr (fun s hs => ?_)
  simp only [Function.comp, decide_eq_true_eq]
  constructor
  · intro hle
    by_contra hn
    exact absurd (hk.order p h s hs (not_le.1 hn)) (not_lt.2 hle)
  · intro hle
    rcases lt_or_eq_of_le hle with hl | rfl
    · exact (hk.order s hs p h hl).le
    · exact le_refl _

theorem rn_agree {g g' : String → String} {S : List String} (h : ∀ p, p ∈ S → g p = g' p) {x : Inst F}
    (hx : ∀ p ∈ x.names, p ∈ S) : x.rn g = x.rn g' := by
  obtain ⟨l, as, ps⟩ := x
  unfold Inst.names at hx
  unfold Inst.rn
  rw [h l (hx l (by simp))]
  cases ps with
  | none => rfl
  | some ps =>
    simp only [Option.map_some]
    rw [List.map_congr_left (fun p hp => h p (hx p (by simp [hp])))]

theorem rn_rn (f g : String → String) (x : Inst F) : (x.rn f).rn g = x.rn (fun s => g (f s)) := by
  obtain ⟨l, as, ps⟩ := x
  cases ps with
  | none => rfl
  | some ps => simp [Inst.rn]

theorem omap_agree {V : Type} {g g' : String → String} {m : OMap V} (h : ∀ p ∈ m, g p.1 = g' p.1) : OMap.rn g m = OMap.rn g' m :=
  List.map_congr_left (fun p hp => by rw [h p hp])

/-- A classifier that respects every order preserving renaming of all strings respects every renaming that keeps the
order of the names that occur. -/
theorem rename_transfer {V : Type} (run : IList F → Inst F → Res (OMap V))
    (h : ∀ g, OrderRenaming g → ∀ data x, run (data.map (Inst.rn g)) (x.rn g) = (run data x).map (OMap.rn g))
    {f : String → String} {data : IList F} {x : Inst F} (hk : KeepsOrder f (namesIn data x)) :
    run (data.map (Inst.rn f)) (x.rn f) = (run data x).map (OMap.rn f) := by
  have hd : ∀ y ∈ data, ∀ p ∈ y.names, p ∈ namesIn data x := by
    intro y hy p hp
    exact List.mem_append.2 (.inl (List.mem_flatMap.2 ⟨y, hy, hp⟩))
  have hx : ∀ p ∈ x.names, p ∈ namesIn data x := fun p hp => List.mem_append.2 (.inr hp)
  generalize hS : namesIn data x = S at *
  have o1 := embed_order S []
  have o1' := embed_order S ['c']
  have o2 := embed_order (S.map f) []
  have a1 := h _ o1 data x
  have a1' := h _ o1' data x
  have a2 := h _ o2 (data.map (Inst.rn f)) (x.rn f)
  have e1 : ∀ y : Inst F, (∀ p ∈ y.names, p ∈ S) → y.rn (embed S ['c']) = y.rn (embed S []) := fun y hy =>
    rn_agree (fun p hp => embed_agree (.inr hp) _ _) hy
  have e2 : ∀ y : Inst F, (∀ p ∈ y.names, p ∈ S) → (y.rn f).rn (embed (S.map f) []) = y.rn (embed S []) := fun y hy => by
    rw [rn_rn]
    exact rn_agree (fun p hp => embed_rename hk (.inr hp)) hy
  rw [e1 x hx, List.map_congr_left (fun y hy => e1 y (hd y hy)), a1] at a1'
  rw [e2 x hx, List.map_map, List.map_congr_left (f := Inst.rn (embed (S.map f) []) ∘ Inst.rn f) (g := Inst.rn (embed S [])) (fun y hy => e2 y (hd y hy)), a1] at a2
  clear a1
  cases hr : run data x with
  | error e =>
    rw [hr] at a2
    cases hr2 : run (data.map (Inst.rn f)) (x.rn f) with
    | error e' =>
      rw [hr2] at a2
      injection a2 with a2
      rw [a2]; rfl
    | ok m => rw [hr2] at a2; cases a2
  | ok m =>
    rw [hr] at a1' a2
    cases hr2 : run (data.map (Inst.rn f)) (x.rn f) with
    | error e' => rw [hr2] at a2; cases a2
    | ok m' =>
      rw [hr2] at a2
      injection a1' with a1'
      injection a2 with a2
      have keys : ∀ p ∈ m, p.1 = "" ∨ p.1 ∈ S := by
        intro p hp
        refine embed_eq ?_
        unfold OMap.rn at a1'
        have := (List.map_inj_left.1 a1') p hp
        exact (Prod.mk.inj this).1
      have e3 : OMap.rn (embed S []) m = OMap.rn (embed (S.map f) []) (OMap.rn f m) := by
        rw [show OMap.rn (embed (S.map f) []) (OMap.rn f m) = OMap.rn (fun s => embed (S.map f) [] (f s)) m by
          unfold OMap.rn; rw [List.map_map]; rfl]
        exact omap_agree (fun p hp => (embed_rename hk (keys p hp)).symm)
      rw [e3] at a2
      have inj : Function.Injective (fun p : String × V => (embed (S.map f) [] p.1, p.2)) := by
        rintro ⟨a, v⟩ ⟨b, w⟩ hab
        obtain ⟨h1, h2⟩ := Prod.mk.inj hab
        exact Prod.ext (o2.inj h1) h2
      have := inj.list_map a2
      rw [← this]; rfl

/-- The same for predicted classes. -/
theorem rename_transfer_class (run : IList F → Inst F → Res String)
    (h : ∀ g, OrderRenaming g → ∀ data x, run (data.map (Inst.rn g)) (x.rn g) = (run data x).map g)
    {f : String → String} {data : IList F} {x : Inst F} (hk : KeepsOrder f (namesIn data x)) :
    run (data.map (Inst.rn f)) (x.rn f) = (run data x).map f := by
  have := rename_transfer (fun d y => (run d y).map (fun p => ([(p, ())] : OMap Unit))) (fun g hg d y => by
    simp only [h g hg, map_map_res]
    rfl) hk
  cases h1 : run data x with
  | error e =>
    rw [h1] at this
    cases h2 : run (data.map (Inst.rn f)) (x.rn f) with
    | error e' => rw [h2] at this; injection this with this; rw [this]; rfl
    | ok p => rw [h2] at this; cases this
  | ok q =>
    rw [h1] at this
    cases h2 : run (data.map (Inst.rn f)) (x.rn f) with
    | error e' => rw [h2] at this; cases this
    | ok p =>
      rw [h2] at this
      injection this with this
      simp only [OMap.rn, List.map_cons, List.map_nil, List.cons.injEq, Prod.mk.injEq, and_true] at this
      rw [this]; rfl

end Verif
