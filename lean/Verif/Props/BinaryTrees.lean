import Verif.Props.Inputs
import Verif.Props.TestSymmetry

/-! # Property C197: binary attributes, decision trees -/

set_option linter.unusedSectionVars false

namespace Verif
open Dbl

variable {F : Type} [Dbl F]

/-! ## forgetting the values of binary attributes -/

/-- forget the value of a binary attribute -/
def blankAttr : Attr F → Attr F
  | .binary _ => .binary ""
  | a => a

/-- forget the values of the binary attributes -/
def blank (x : Inst F) : Inst F := { x with attrs := x.attrs.map blankAttr }

theorem AttrAlike.blank {a b : Attr F} (h : AttrAlike a b) : blankAttr a = blankAttr b := by
  cases h <;> rfl

theorem alike_map {β : Type} {f : Attr F → β} (hf : ∀ a b, AttrAlike a b → f a = f b) {l l' : List (Attr F)}
    (h : List.Forall₂ AttrAlike l l') : l.map f = l'.map f := by
  induction h with
  | nil => rfl
  | cons h _ ih => rw [List.map_cons, List.map_cons, hf _ _ h, ih]

theorem AlikeButBinary.blank {x y : Inst F} (h : AlikeButBinary x y) : Verif.blank x = Verif.blank y := by
  obtain ⟨h1, h2, h3⟩ := h
  have : x.attrs.map blankAttr = y.attrs.map blankAttr := alike_map (fun a b h => h.blank) h3
  unfold Verif.blank
  rw [h1, h2, this]

theorem blank_list {l l' : IList F} (h : List.Forall₂ AlikeButBinary l l') : l.map blank = l'.map blank := by
  induction h with
  | nil => rfl
  | cons h _ ih => rw [List.map_cons, List.map_cons, h.blank, ih]

theorem alike_types {x y : Inst F} (h : AlikeButBinary x y) : typesOf x = typesOf y :=
  alike_map (fun a b h => by cases h <;> rfl) h.attrs

theorem alike_types_list {ts : List AttrType} {l l' : IList F} (h : List.Forall₂ AlikeButBinary l l')
    (hts : ∀ x ∈ l, typesOf x = ts) : ∀ y ∈ l', typesOf y = ts := by
  induction h with
  | nil => simp
  | cons h _ ih =>
    intro y hy
    rcases List.mem_cons.1 hy with rfl | hy
    · rw [← alike_types h]; exact hts _ (by simp)
    · exact ih (fun x hx => hts x (by simp [hx])) y hy

theorem blank_types (x : Inst F) : typesOf (blank x) = typesOf x := by
  unfold typesOf blank
  rw [List.map_map]
  apply List.map_congr_left
  intro a _
  cases a <;> rfl

/-- the positions that are not binary -/
def seen (ts : List AttrType) : List Nat := (List.range ts.length).filter (fun i => decide (ts[i]? ≠ some .binary))

theorem mem_seen {ts : List AttrType} {i : Nat} : i ∈ seen ts ↔ i < ts.length ∧ ts[i]? ≠ some .binary := by
  unfold seen
  simp

/-- forget the attributes outside `S` -/
def hide (S : List Nat) (x : Inst F) : Inst F :=
  { x with attrs := x.attrs.mapIdx (fun i a => if i ∈ S then a else .binary "") }

theorem hide_shape (S : List Nat) : KeepsShape (hide S : Inst F → Inst F) :=
  ⟨fun _ => rfl, fun x => by simp [hide, Inst.attributeSize]⟩

theorem hide_at {S : List Nat} {i : Nat} (hi : i ∈ S) : KeepsAt (hide S : Inst F → Inst F) i := by
  intro x
  unfold Inst.getAttribute hide atR
  rw [List.getElem?_mapIdx]
  simp only [hi, if_true]
  cases x.attrs[i]? <;> rfl

theorem hide_not {S : List Nat} {i : Nat} (hi : i ∉ S) (x : Inst F) :
    (hide S x).getAttribute i = (x.getAttribute i).map (fun _ => .binary "") := by
  unfold Inst.getAttribute hide atR
  rw [List.getElem?_mapIdx]
  simp only [hi, if_false]
  cases x.attrs[i]? <;> rfl

theorem hide_blank {ts : List AttrType} {x : Inst F} (h : typesOf x = ts) : hide (seen ts) x = blank x := by
  unfold hide blank
  congr 1
  apply List.ext_getElem?
  intro i
  rw [List.getElem?_mapIdx, List.getElem?_map]
  cases hx : x.attrs[i]? with
  | none => rfl
  | some a =>
    have ht : ts[i]? = some (typeOf a) := by
      rw [← h, typesOf, List.getElem?_map, hx]; rfl
    have hl : i < ts.length := (List.getElem?_eq_some_iff.1 ht).1
    simp only [Option.map_some]
    cases a with
    | binary v => rw [if_neg (by rw [mem_seen]; rintro ⟨_, h2⟩; exact h2 ht)]; rfl
    | continuous v => rw [if_pos (mem_seen.2 ⟨hl, by rw [ht]; simp [typeOf]⟩)]; rfl
    | discrete v => rw [if_pos (mem_seen.2 ⟨hl, by rw [ht]; simp [typeOf]⟩)]; rfl
    | indexed v j m => rw [if_pos (mem_seen.2 ⟨hl, by rw [ht]; simp [typeOf]⟩)]; rfl

theorem hide_blank_list {ts : List AttrType} {l : IList F} (h : ∀ x ∈ l, typesOf x = ts) :
    l.map (hide (seen ts)) = l.map blank :=
  List.map_congr_left (fun x hx => hide_blank (h x hx))

/-- an attribute that is not among `seen ts` is binary -/
theorem unseen_binary {ts : List AttrType} {x : Inst F} (h : typesOf x = ts) {i : Nat} (hi : i ∉ seen ts) {a : Attr F}
    (ha : x.getAttribute i = .ok a) : ∃ v, a = .binary v := by
  have ht := type_of_attr h ha
  have hl : i < ts.length := (List.getElem?_eq_some_iff.1 ht).1
  rw [mem_seen] at hi
  cases a with
  | binary v => exact ⟨v, rfl⟩
  | continuous v => exact absurd ⟨hl, by rw [ht]; simp [typeOf]⟩ hi
  | discrete v => exact absurd ⟨hl, by rw [ht]; simp [typeOf]⟩ hi
  | indexed v j m => exact absurd ⟨hl, by rw [ht]; simp [typeOf]⟩ hi

theorem blank_alike (x : Inst F) : AlikeButBinary (blank x) x := by
  refine ⟨rfl, rfl, ?_⟩
  unfold blank
  rw [List.forall₂_map_left_iff]
  refine List.forall₂_same.2 (fun a _ => ?_)
  cases a with
  | binary v => exact .binary _ _
  | _ => exact .same _

theorem alike_query {ts : List AttrType} {x y : Inst F} (hx : typesOf x = ts) (h : AlikeButBinary x y) :
    SameQuery (seen ts) x y := by
  refine ⟨h.possible, fun i hi => ?_⟩
  have hl := h.attrs.length_eq
  by_cases hi' : i < x.attrs.length
  · have := (List.forall₂_iff_get.1 h.attrs).2 i hi' (by omega)
    simp only [List.get_eq_getElem] at this
    rw [List.getElem?_eq_getElem hi', List.getElem?_eq_getElem (by omega)]
    have hb : ∀ v, x.attrs[i] ≠ .binary v := by
      intro v hc
      refine (mem_seen.1 hi).2 ?_
      rw [← hx, typesOf, List.getElem?_map, List.getElem?_eq_getElem hi', hc]; rfl
    revert this hb
    generalize x.attrs[i] = a
    generalize y.attrs[i] = b
    intro h hb
    cases h with
    | same => rfl
    | binary v w => exact absurd rfl (hb v)
  · rw [List.getElem?_eq_none (by omega), List.getElem?_eq_none (by omega)]

/-! ## growing -/

section
variable {ts : List AttrType}

theorem blind_searchStep {s : Node.Search F} (hts : ∀ x ∈ s.data, typesOf x = ts) (i : Nat) :
    Node.searchStep (s.over (hide (seen ts))) i = (Node.searchStep s i).map (Node.Search.over (hide (seen ts))) := by
  by_cases hi : i ∈ seen ts
  · exact keeps_searchStep (hide_shape _) (hide_at hi) s
  · unfold Node.searchStep Node.Search.over
    simp only [keeps_atR]
    cases h0 : atR s.data 0 with
    | error e => rfl
    | ok x0 =>
      have hx0 : x0 ∈ s.data := List.mem_of_getElem? (by simpa using h0)
      simp only [Except.map, res_bind_ok]
      rw [hide_not hi]
      cases ha : x0.getAttribute i with
      | error e => rfl
      | ok a =>
        obtain ⟨v, rfl⟩ := unseen_binary (hts x0 hx0) hi ha
        rfl

theorem searchStep_mem {s s' : Node.Search F} {i : Nat} (h : Node.searchStep s i = .ok s') : ∀ x ∈ s'.data, x ∈ s.data := by
  unfold Node.searchStep at h
  rw [bind_ok_iff] at h
  obtain ⟨x0, _, h⟩ := h
  rw [bind_ok_iff] at h
  obtain ⟨a, _, h⟩ := h
  unfold Node.searchKind at h
  split at h
  · rw [bind_ok_iff] at h
    obtain ⟨m, _, h⟩ := h
    unfold Node.searchIndexed at h
    rw [bind_ok_iff] at h
    obtain ⟨r, _, h⟩ := h
    cases h
    exact fun x hx => hx
  · split at h
    · unfold Node.searchDiscrete at h
      rw [bind_ok_iff] at h
      obtain ⟨e, _, h⟩ := h
      cases h
      exact fun x hx => hx
    · split at h
      · unfold Node.searchContinuous at h
        rw [bind_ok_iff] at h
        obtain ⟨sorted, hsort, h⟩ := h
        rw [bind_ok_iff] at h
        obtain ⟨r, _, h⟩ := h
        cases h
        exact fun x hx => (sortByAttribute_perm hsort).mem_iff.1 hx
      · cases h; exact fun x hx => hx

theorem blind_search (is : List Nat) (s : Node.Search F) (hts : ∀ x ∈ s.data, typesOf x = ts) :
    is.foldlM Node.searchStep (s.over (hide (seen ts))) =
      (is.foldlM Node.searchStep s).map (Node.Search.over (hide (seen ts))) := by
  induction is generalizing s with
  | nil => rfl
  | cons i is ih =>
    rw [List.foldlM_cons, List.foldlM_cons, blind_searchStep hts]
    cases h : Node.searchStep s i with
    | error e => rfl
    | ok s1 => exact ih s1 (fun x hx => hts x (searchStep_mem h x hx))

theorem blind_searchStep_attr {s s' : Node.Search F} {i : Nat} (hts : ∀ x ∈ s.data, typesOf x = ts)
    (hs : ∀ j, s.best.attr = some j → j ∈ seen ts) (h : Node.searchStep s i = .ok s') :
    ∀ j, s'.best.attr = some j → j ∈ seen ts := by
  by_cases hi : i ∈ seen ts
  · exact searchStep_attr hi hs h
  · unfold Node.searchStep at h
    rw [bind_ok_iff] at h
    obtain ⟨x0, h0, h⟩ := h
    rw [bind_ok_iff] at h
    obtain ⟨a, ha, h⟩ := h
    obtain ⟨v, rfl⟩ := unseen_binary (hts x0 (List.mem_of_getElem? (by simpa using h0))) hi ha
    cases h
    exact hs

theorem blind_search_attr {s s' : Node.Search F} {is : List Nat} (hts : ∀ x ∈ s.data, typesOf x = ts)
    (hs : ∀ j, s.best.attr = some j → j ∈ seen ts) (h : is.foldlM Node.searchStep s = .ok s') :
    ∀ j, s'.best.attr = some j → j ∈ seen ts := by
  induction is generalizing s with
  | nil => cases h; exact hs
  | cons i is ih =>
    rw [List.foldlM_cons, bind_ok_iff] at h
    obtain ⟨s1, h1, h⟩ := h
    exact ih (fun x hx => hts x (searchStep_mem h1 x hx)) (blind_searchStep_attr hts hs h1) h

theorem blind_grow {param : Node.SubsetParam} {st : Bool} :
    ∀ (fuel : Nat) (data : IList F) (c : Cond F), (∀ x ∈ data, typesOf x = ts) →
      Node.grow param st fuel (data.map (hide (seen ts))) c = Node.grow param st fuel data c := by
  intro fuel
  induction fuel with
  | zero => intro data c _; rfl
  | succ fuel ih =>
    intro data c hts
    have hg := hide_shape (F := F) (seen ts)
    rw [Node.grow, Node.grow]
    simp only [keeps_classLabels hg, keeps_distinct hg]
    split
    · rfl
    · split
      · rfl
      · unfold Node.splitNode
        rw [keeps_atR]
        cases h0 : atR data 0 with
        | error e => rfl
        | ok x0 =>
          simp only [Except.map, res_bind_ok, hg.size]
          cases his : Node.triedIndices param x0.attributeSize with
          | error e => rfl
          | ok is =>
            simp only [res_bind_ok]
            have hse := blind_search is
              (⟨data, data.classDistribution, ⟨data.classDistribution.entropy, none, 0, Dbl.zero⟩⟩ : Node.Search F) hts
            simp only [Node.Search.over, keeps_classDist hg] at hse ⊢
            rw [hse]
            cases hs : is.foldlM Node.searchStep
                (⟨data, data.classDistribution, ⟨data.classDistribution.entropy, none, 0, Dbl.zero⟩⟩ : Node.Search F) with
            | error e => rfl
            | ok s =>
              have hat := blind_search_attr (ts := ts) (s := ⟨data, data.classDistribution, ⟨data.classDistribution.entropy, none, 0, Dbl.zero⟩⟩)
                hts (by intro j hj; cases hj) hs
              have hmem : ∀ x ∈ s.data, x ∈ data := search_mem hs
              simp only [Except.map, res_bind_ok]
              unfold Node.finish
              have hob : (s.over (hide (seen ts))).best = s.best := rfl
              have hod : (s.over (hide (seen ts))).data = s.data.map (hide (seen ts)) := rfl
              rw [hob, hod]
              cases hb : s.best.attr with
              | none => rfl
              | some i =>
                have hi := hide_at (F := F) (hat i hb)
                simp only [keeps_atR]
                cases atR s.data 0 with
                | error e => rfl
                | ok x1 =>
                  simp only [Except.map, res_bind_ok]
                  rw [hi x1]
                  cases x1.getAttribute i with
                  | error e => rfl
                  | ok a =>
                    simp only [res_bind_ok]
                    rw [keeps_children hi, childrenKind_congr (fun p c hp => ih p c (fun x hx => hts x (hmem x (hp x hx))))]

theorem blind_asksOnly {param : Node.SubsetParam} {st : Bool} :
    ∀ (fuel : Nat) (data : IList F) (c : Cond F) (t : Node F), (∀ x ∈ data, typesOf x = ts) →
      Node.grow param st fuel data c = .ok t → AsksOnly (seen ts) t := by
  intro fuel
  induction fuel with
  | zero => intro data c t _ h; cases h
  | succ fuel ih =>
    intro data c t hts h
    rw [Node.grow] at h
    simp only at h
    split at h
    · cases h; exact .mk _ _ _ _ _ (by simp) (by simp)
    · split at h
      · cases h; exact .mk _ _ _ _ _ (by simp) (by simp)
      · unfold Node.splitNode at h
        simp only [bind_ok_iff] at h
        obtain ⟨x0, hx0, is, his, s, hs, h⟩ := h
        have hat := blind_search_attr (ts := ts) (s := ⟨data, data.classDistribution, ⟨data.classDistribution.entropy, none, 0, Dbl.zero⟩⟩)
          hts (by intro j hj; cases hj) hs
        have hmem := search_mem hs
        unfold Node.finish at h
        split at h
        · cases h; exact .mk _ _ _ _ _ (by simp) (by simp)
        · rename_i i hb
          simp only [bind_ok_iff] at h
          obtain ⟨y0, _, a, _, ch, hch, h⟩ := h
          cases h
          have hsh := childrenKind_from hch
          refine .mk _ _ _ _ _ ?_ ?_
          · intro m hm
            obtain ⟨p, c', _, hc, hr⟩ := hsh m hm
            exact ⟨i, hat i hb, by rw [grow_cond hr, hc]⟩
          · intro m hm
            obtain ⟨p, c', hp, _, hr⟩ := hsh m hm
            exact ih p c' m (fun x hx => hts x (hmem x (hp x hx))) hr

end

/-! ## pruning -/

section
variable {S : List Nat} {acc acc' : Node F → Res F}

theorem AsksOnly.setLeaf {t : Node F} (h : AsksOnly S t) (b : Bool) : AsksOnly S (t.setLeaf b) := by
  cases h with
  | mk c leaf lab d ch at_ below => exact .mk _ _ _ _ _ at_ below

mutual
theorem prune_same (hacc : ∀ t, AsksOnly S t → acc t = acc' t) : ∀ (n : Node F) (ctx : Node F → Node F),
    (∀ m, AsksOnly S m → m.cond = n.cond → AsksOnly S (ctx m)) → AsksOnly S n →
    pruneNode acc ctx n = pruneNode acc' ctx n ∧ ∀ n', pruneNode acc ctx n = .ok n' → AsksOnly S n' ∧ n'.cond = n.cond
  | .mk c leaf s d ch, ctx, hctx, hn => by
    rw [pruneNode, pruneNode]
    cases leaf with
    | true => exact ⟨rfl, fun n' h => by simp only [if_true] at h; cases h; exact ⟨hn, rfl⟩⟩
    | false =>
      simp only [Bool.false_eq_true, if_false]
      rw [hacc _ (hctx _ hn rfl), hacc _ (hctx _ (hn.setLeaf true) rfl)]
      cases acc' (ctx (Node.mk c false s d ch)) with
      | error e => exact ⟨rfl, fun n' h => by cases h⟩
      | ok before =>
        simp only [res_bind_ok]
        cases acc' (ctx ((Node.mk c false s d ch).setLeaf true)) with
        | error e => exact ⟨rfl, fun n' h => by cases h⟩
        | ok after =>
          simp only [res_bind_ok]
          by_cases hlt : (after <. before) = true
          · rw [if_pos hlt, if_pos hlt]
            cases hn with
            | mk _ _ _ _ _ at_ below =>
              obtain ⟨h1, h2⟩ := pruneChildren_same hacc ch [] (fun ch => ctx ((Node.mk c false s d ch).setLeaf false))
                (fun l hl => hctx _ (.mk _ _ _ _ _ (fun m hm => (hl m hm).1) (fun m hm => (hl m hm).2)) rfl)
                (fun m hm => ⟨at_ m hm, below m hm⟩) (by simp)
              refine ⟨by rw [h1], fun n' h => ?_⟩
              rw [bind_ok_iff] at h
              obtain ⟨ch', hch, h⟩ := h
              cases h
              have := h2 ch' hch
              exact ⟨.mk _ _ _ _ _ (fun m hm => (this m hm).1) (fun m hm => (this m hm).2), rfl⟩
          · rw [if_neg hlt, if_neg hlt]
            refine ⟨rfl, fun n' h => ?_⟩
            cases h
            exact ⟨hn.setLeaf true, rfl⟩
theorem pruneChildren_same (hacc : ∀ t, AsksOnly S t → acc t = acc' t) :
    ∀ (ns done : List (Node F)) (ctx : List (Node F) → Node F),
    (∀ l : List (Node F), (∀ m ∈ l, (∃ i ∈ S, m.cond.attr = (i : Int)) ∧ AsksOnly S m) → AsksOnly S (ctx l)) →
    (∀ m ∈ ns, (∃ i ∈ S, m.cond.attr = (i : Int)) ∧ AsksOnly S m) →
    (∀ m ∈ done, (∃ i ∈ S, m.cond.attr = (i : Int)) ∧ AsksOnly S m) →
    pruneChildren acc ctx done ns = pruneChildren acc' ctx done ns ∧
      ∀ r, pruneChildren acc ctx done ns = .ok r → ∀ m ∈ r, (∃ i ∈ S, m.cond.attr = (i : Int)) ∧ AsksOnly S m
  | [], done, ctx, hctx, hns, hd => by
    rw [pruneChildren, pruneChildren]
    exact ⟨rfl, fun r h => by cases h; exact hd⟩
  | n :: ns, done, ctx, hctx, hns, hd => by
    rw [pruneChildren, pruneChildren]
    obtain ⟨h1, h2⟩ := prune_same hacc n (fun m => ctx (done ++ m :: ns)) (fun m hm hc => hctx _ (by
      intro k hk
      rcases List.mem_append.1 hk with hk | hk
      · exact hd k hk
      · rcases List.mem_cons.1 hk with rfl | hk
        · exact ⟨by rw [hc]; exact (hns n (by simp)).1, hm⟩
        · exact hns k (by simp [hk]))) (hns n (by simp)).2
    rw [h1] at h2 ⊢
    cases hp : pruneNode acc' (fun m => ctx (done ++ m :: ns)) n with
    | error e => exact ⟨rfl, fun r h => by cases h⟩
    | ok n' =>
      obtain ⟨h3, h4⟩ := h2 n' hp
      simp only [res_bind_ok]
      exact pruneChildren_same hacc ns (done ++ [n']) ctx hctx (fun m hm => hns m (by simp [hm])) (by
        intro k hk
        rcases List.mem_append.1 hk with hk | hk
        · exact hd k hk
        · rw [List.mem_singleton.1 hk]
          exact ⟨by rw [h4]; exact (hns n (by simp)).1, h3⟩)
end
end

/-! ## the tree classifiers -/

theorem blank_inputs (x : Inst F) : SameInputs x (blank x) := by
  refine ⟨rfl, rfl, ?_, ?_, ?_⟩
  · unfold Inst.continuousAttributeSize blank
    rw [List.foldl_map]
    congr 1
    funext s a
    cases a <;> rfl
  · unfold Inst.toVector blank
    rw [List.foldlM_map]
    congr 1
    funext s a
    cases a <;> rfl
  · unfold discreteCheck blank
    rw [List.all_map]
    congr 1
    funext a
    cases a <;> rfl

theorem addTo_only {ps ps' : Parts F} {k : Nat} {x : Inst F} (h : Parts.addTo ps k x = .ok ps') :
    ∀ p ∈ ps', ∀ y ∈ p, y = x ∨ ∃ q ∈ ps, y ∈ q := by
  unfold Parts.addTo at h
  rw [bind_ok_iff] at h
  obtain ⟨p0, h0, h⟩ := h
  cases h
  intro p hp y hy
  rcases List.mem_or_eq_of_mem_set hp with hp | rfl
  · exact .inr ⟨p, hp, hy⟩
  · unfold IList.add at hy
    rcases List.mem_append.1 hy with hy | hy
    · exact .inr ⟨p0, List.mem_of_getElem? (by simpa using h0), hy⟩
    · exact .inl (List.mem_singleton.1 hy)

theorem stratified_mem {l : IList F} {r : F} {arr : List Nat} {ps : Parts F}
    (h : Parts.byRatioStratified l r arr = .ok ps) : ∀ p ∈ ps, ∀ y ∈ p, y ∈ l := by
  unfold Parts.byRatioStratified at h
  simp only [bind_ok_iff] at h
  obtain ⟨st, hst, h⟩ := h
  cases h
  refine foldlM_keeps (P := fun st : Counter × Parts F => ∀ p ∈ st.2, ∀ y ∈ p, y ∈ l) ?_ _ _ _ hst (by simp)
  intro st i st' hP h
  rw [bind_ok_iff] at h
  obtain ⟨k, _, h⟩ := h
  rw [bind_ok_iff] at h
  obtain ⟨x, hx, h⟩ := h
  have hsp : ∃ ps, (∃ j, Parts.addTo st.2 j x = .ok ps) ∧ st' = (Counter.put st.1 x.label, ps) := by
    split at h
    · rw [bind_ok_iff] at h
      obtain ⟨ps, hps, h⟩ := h
      cases h
      exact ⟨ps, ⟨_, hps⟩, rfl⟩
    · rw [bind_ok_iff] at h
      obtain ⟨ps, hps, h⟩ := h
      cases h
      exact ⟨ps, ⟨_, hps⟩, rfl⟩
  obtain ⟨ps, ⟨j, hps⟩, rfl⟩ := hsp
  have hxl : x ∈ l := List.mem_of_getElem? (by simpa [IList.get] using hx)
  intro p hp y hy
  rcases addTo_only hps p hp y hy with rfl | ⟨q, hq, hy⟩
  · exact hxl
  · exact hP q hq y hy

section
variable {ts : List AttrType} {T : IList F} (hts : ∀ x ∈ T, typesOf x = ts)
include hts

theorem blind_treeAccuracy {t : Node F} (ht : AsksOnly (seen ts) t) : treeAccuracy (T.map blank) t = treeAccuracy T t := by
  unfold treeAccuracy
  congr 1
  unfold testClassifier
  rw [List.foldlM_map, List.length_map]
  congr 1
  exact foldlM_same_steps _ _ (fun x hx n => by
    rw [treePredict_same (alike_query (by rw [blank_types]; exact hts x hx) (blank_alike x)) ht]
    rfl)

theorem blind_treeTrain (pruning : Option (F × List Nat)) : treeTrain (T.map blank) pruning = treeTrain T pruning := by
  cases pruning with
  | none =>
    unfold treeTrain
    simp only [List.length_map]
    rw [← hide_blank_list hts, blind_grow _ _ _ hts]
  | some p =>
    unfold treeTrain
    simp only
    rw [in_byRatioStratified blank_inputs, bind_map_res]
    refine bind_congr_res (fun ps hps => ?_)
    simp only [keeps_atR, bind_map_res]
    refine bind_congr_res (fun p1 h1 => ?_)
    have ht : ∀ {k : Nat} {p : IList F}, atR ps k = .ok p → ∀ x ∈ p, typesOf x = ts := fun h x hx =>
      hts x (stratified_mem hps _ (List.mem_of_getElem? (by simpa using h)) x hx)
    rw [List.length_map, ← hide_blank_list (ht h1), blind_grow _ _ _ (ht h1)]
    refine bind_congr_res (fun root hr => bind_congr_res (fun p0 h0 => ?_))
    unfold prune
    exact (prune_same (fun t hA => blind_treeAccuracy (ht h0) hA) root id (fun m hm _ => hm)
      (blind_asksOnly _ _ _ _ (ht h1) hr)).1

theorem treeTrain_asksOnly {pruning : Option (F × List Nat)} {t : Node F} (h : treeTrain T pruning = .ok t) :
    AsksOnly (seen ts) t := by
  cases pruning with
  | none => exact blind_asksOnly _ _ _ _ hts h
  | some p =>
    unfold treeTrain at h
    simp only [bind_ok_iff] at h
    obtain ⟨ps, hps, p1, h1, root, hr, p0, _, h⟩ := h
    exact ((prune_same (acc := treeAccuracy p0) (acc' := treeAccuracy p0) (fun _ _ => rfl) root id (fun m hm _ => hm)
      (blind_asksOnly _ _ _ _ (fun x hx => hts x (stratified_mem hps _ (List.mem_of_getElem? (by simpa using h1)) x hx)) hr)).2
      t h).1

theorem blind_ensembleTrain (param : Node.SubsetParam) (draws : Nat → List Nat) (old : List (Node F)) (B : Int) :
    ensembleTrain param draws old (T.map blank) B = ensembleTrain param draws old T B := by
  unfold ensembleTrain
  congr 1
  funext forest i
  have h : ∀ x ∈ IList.bootstrap T (draws i), typesOf x = ts := fun x hx => hts x (bootstrap_mem hx)
  simp only [bootstrap_map, List.length_map]
  rw [← hide_blank_list h, blind_grow _ _ _ h]

theorem ensembleTrain_asksOnly {param : Node.SubsetParam} {draws : Nat → List Nat} {B : Int} {forest : List (Node F)}
    (h : ensembleTrain param draws [] T B = .ok forest) : ∀ t ∈ forest, AsksOnly (seen ts) t := by
  refine foldlM_keeps (P := fun forest : List (Node F) => ∀ t ∈ forest, AsksOnly (seen ts) t) ?_ _ _ _ h (by simp)
  intro f i f' hf hi
  rw [bind_ok_iff] at hi
  obtain ⟨t, ht, hi⟩ := hi
  cases hi
  intro u hu
  rcases List.mem_append.1 hu with hu | hu
  · exact hf u hu
  · rw [List.mem_singleton.1 hu]
    exact blind_asksOnly _ _ _ _ (fun x hx => hts x (bootstrap_mem hx)) ht

end

end Verif
