import Verif.Parser.Skeleton

/-!
# Events as groups of build operations (proof device)

`Rel E g` relates the recorded events `E` to groups of build operations, one group per event: the
start events of a chain of forward parents all belong to the group of the event that the sink meets
first. The concatenation of the groups is the flattening of the skeletons of the direct machine.
-/

namespace Ludtwig

/-- Build operations. -/
inductive Op
  | start (pos : Nat) (kind : Option SyntaxKind)
  | finish
  | leaf (l : Leaf)

mutual
/-- The operations that build a skeleton. -/
def Skel.flat : Skel → List Op
  | .leaf l => [.leaf l]
  | .node p k cs => .start p (some k) :: (flatAll cs ++ [.finish])
/-- The operations that build a list of skeletons. -/
def flatAll : List Skel → List Op
  | [] => []
  | x :: xs => x.flat ++ flatAll xs
end

@[simp] theorem flatAll_append (a b : List Skel) : flatAll (a ++ b) = flatAll a ++ flatAll b := by
  induction a with
  | nil => simp [flatAll]
  | cons x xs ih => simp [flatAll, ih]

/-- The operations that lead to open frames (innermost first) over finished skeletons. -/
def flatFrames (base : List Skel) : List (Nat × List Skel) → List Op
  | [] => flatAll base
  | (p, cs) :: fs => flatFrames base fs ++ .start p none :: flatAll cs

/-- The label of a start operation. -/
def Op.label? : Op → Option Nat
  | .start p _ => some p
  | _ => none

/-- The labels of the start operations. -/
def labels (ops : List Op) : List Nat := ops.filterMap Op.label?

@[simp] theorem labels_append (a b : List Op) : labels (a ++ b) = labels a ++ labels b := by
  simp [labels]

@[simp] theorem labels_nil : labels [] = [] := rfl

@[simp] theorem labels_start (p k l) : labels (.start p k :: l) = p :: labels l := rfl
@[simp] theorem labels_finish (l) : labels (.finish :: l) = labels l := rfl
@[simp] theorem labels_leaf (x l) : labels (.leaf x :: l) = labels l := rfl

/-- A chain of start events along the forward parents, innermost first. -/
inductive Linked (E : List Event) : Nat → List Op → Prop
  | hole (i) : E[i]? = some .placeholder → Linked E i [.start i none]
  | last (i k) : E[i]? = some (.startNode k none) → Linked E i [.start i (some k)]
  | link (i k fp l) : E[i]? = some (.startNode k (some fp)) → 0 < fp → Linked E (i + fp) l →
      Linked E i (.start i (some k) :: l)

/-- The token command of an event. -/
def Event.leaf? : Event → Option Leaf
  | .addToken k => some (.tok k)
  | .addNextNTokensAs n k => some (.ntok n k)
  | .explicitlyConsumeTrivia => some .triv
  | _ => none

/-- The group of the event at a position. -/
inductive GroupOk (E : List Event) (i : Nat) : List Op → Prop
  | leaf (e l) : E[i]? = some e → e.leaf? = some l → GroupOk E i [.leaf l]
  | finish : E[i]? = some .finishNode → GroupOk E i [.finish]
  | taken (k fp) : E[i]? = some (.startNode k fp) → GroupOk E i []
  | takenHole : E[i]? = some .placeholder → GroupOk E i []
  | chain (l) : Linked E i l → GroupOk E i l.reverse

/-- Is the event a start of a node (possibly not completed yet). -/
def Event.isStart : Event → Bool
  | .startNode _ _ => true
  | .placeholder => true
  | _ => false

/-- Events and groups belong together. -/
structure Rel (E : List Event) (g : List (List Op)) : Prop where
  len : g.length = E.length
  ok : ∀ i x, g[i]? = some x → GroupOk E i x
  nodup : (labels g.flatten).Nodup
  cover : ∀ i e, E[i]? = some e → e.isStart → i ∈ labels g.flatten

theorem Linked.lt {E i l} (h : Linked E i l) : i < E.length := by
  cases h <;> rename_i h <;> exact (List.getElem?_eq_some_iff.1 (by assumption)).1

theorem Linked.labels_lt {E i l} (h : Linked E i l) : ∀ p ∈ labels l, p < E.length := by
  induction h with
  | hole i h => simp; exact (List.getElem?_eq_some_iff.1 h).1
  | last i k h => simp; exact (List.getElem?_eq_some_iff.1 h).1
  | link i k fp l h _ _ ih =>
    simp only [labels_start, List.mem_cons, forall_eq_or_imp]
    exact ⟨(List.getElem?_eq_some_iff.1 h).1, ih⟩

theorem Linked.labels_ge {E i l} (h : Linked E i l) : ∀ p ∈ labels l, i ≤ p := by
  induction h with
  | hole i h => simp
  | last i k h => simp
  | link i k fp l h _ _ ih =>
    simp only [labels_start, List.mem_cons, forall_eq_or_imp]
    refine ⟨Nat.le_refl _, fun p hp => ?_⟩
    have := ih p hp
    omega

theorem Linked.mem_start {E i l} (h : Linked E i l) : ∀ p k, Op.start p (some k) ∈ l →
    ∃ fp, E[p]? = some (.startNode k fp) := by
  induction h with
  | hole i h => simp
  | last i k h => simp; exact ⟨none, h⟩
  | link i k fp l h _ _ ih =>
    intro p k' hm
    simp at hm
    rcases hm with ⟨rfl, rfl⟩ | hm
    · exact ⟨_, h⟩
    · exact ih p k' hm

theorem Linked.mem_hole {E i l} (h : Linked E i l) : ∀ p, Op.start p none ∈ l →
    E[p]? = some .placeholder := by
  induction h with
  | hole i h => simp; exact h
  | last i k h => simp
  | link i k fp l h _ _ ih =>
    intro p hm
    simp at hm
    exact ih p hm

theorem Linked.mem_is_start {E i l} (h : Linked E i l) : ∀ op ∈ l, ∃ p k, op = Op.start p k := by
  induction h with
  | hole i h => simp
  | last i k h => simp
  | link i k fp l h _ _ ih =>
    intro op hm
    simp at hm
    rcases hm with rfl | hm
    · exact ⟨_, _, rfl⟩
    · exact ih op hm

@[simp] theorem labels_reverse (l : List Op) : labels l.reverse = (labels l).reverse := by
  simp [labels, List.filterMap_reverse]

theorem GroupOk.labels_lt {E i l} (h : GroupOk E i l) : ∀ p ∈ labels l, p < E.length := by
  cases h with
  | chain l h => intro p hp; simp at hp; exact h.labels_lt p hp
  | _ => simp

theorem GroupOk.labels_ge {E i l} (h : GroupOk E i l) : ∀ p ∈ labels l, i ≤ p := by
  cases h with
  | chain l h => intro p hp; simp at hp; exact h.labels_ge p hp
  | _ => simp

theorem Rel.labels_lt {E g} (h : Rel E g) : ∀ p ∈ labels g.flatten, p < E.length := by
  intro p hp
  simp only [labels, List.mem_filterMap, List.mem_flatten] at hp
  obtain ⟨op, ⟨x, hx, hop⟩, hl⟩ := hp
  obtain ⟨i, hi⟩ := List.getElem?_of_mem hx
  exact (h.ok i x hi).labels_lt p (by simp only [labels, List.mem_filterMap]; exact ⟨op, hop, hl⟩)

theorem Rel.mem_hole {E g} (h : Rel E g) {p} (hp : Op.start p none ∈ g.flatten) :
    E[p]? = some .placeholder := by
  obtain ⟨x, hx, hop⟩ := List.mem_flatten.1 hp
  obtain ⟨i, hi⟩ := List.getElem?_of_mem hx
  cases h.ok i x hi with
  | chain l h => exact h.mem_hole p (by simpa using hop)
  | leaf => simp at hop
  | finish => simp at hop
  | _ => simp at hop

theorem Rel.mem_start {E g} (h : Rel E g) {p k} (hp : Op.start p (some k) ∈ g.flatten) :
    ∃ fp, E[p]? = some (.startNode k fp) := by
  obtain ⟨x, hx, hop⟩ := List.mem_flatten.1 hp
  obtain ⟨i, hi⟩ := List.getElem?_of_mem hx
  cases h.ok i x hi with
  | chain l h => exact h.mem_start p k (by simpa using hop)
  | leaf => simp at hop
  | finish => simp at hop
  | _ => simp at hop

/-! ## Recording further events -/

theorem getElem?_append_some {E : List α} {e : List α} {i : Nat} {x : α} (h : E[i]? = some x) : (E ++ e)[i]? = some x := by
  rw [List.getElem?_append_left]
  · exact h
  · exact (List.getElem?_eq_some_iff.1 h).1

theorem Linked.append {E i l} (h : Linked E i l) (e) : Linked (E ++ e) i l := by
  induction h with
  | hole i h => exact .hole i (getElem?_append_some h)
  | last i k h => exact .last i k (getElem?_append_some h)
  | link i k fp l h hf _ ih => exact .link i k fp l (getElem?_append_some h) hf ih

theorem GroupOk.append {E i l} (h : GroupOk E i l) (e) : GroupOk (E ++ e) i l := by
  cases h with
  | leaf e l h hl => exact .leaf e l (getElem?_append_some h) hl
  | finish h => exact .finish (getElem?_append_some h)
  | taken k fp h => exact .taken k fp (getElem?_append_some h)
  | takenHole h => exact .takenHole (getElem?_append_some h)
  | chain l h => exact .chain l (h.append e)

theorem Rel.push {E g} (h : Rel E g) {e x} (hx : GroupOk (E ++ [e]) E.length x)
    (hn : (labels x).Nodup) (hge : ∀ p ∈ labels x, E.length ≤ p)
    (hc : e.isStart → E.length ∈ labels x) : Rel (E ++ [e]) (g ++ [x]) where
  len := by simp [h.len]
  ok := by
    intro i y hy
    rw [List.getElem?_append] at hy
    split at hy
    · exact (h.ok i y hy).append _
    · rename_i hi
      have : i = g.length := by
        have := (List.getElem?_eq_some_iff.1 hy).1
        simp at this
        omega
      subst this
      simp at hy
      subst hy
      rw [h.len]
      exact hx
  nodup := by
    simp only [List.flatten_append, List.flatten_cons, List.flatten_nil, List.append_nil,
      labels_append]
    refine List.nodup_append.2 ⟨h.nodup, hn, ?_⟩
    intro a ha b hb hab
    have := h.labels_lt a ha
    have := hge b hb
    omega
  cover := by
    intro i e' he hs
    simp only [List.flatten_append, List.flatten_cons, List.flatten_nil, List.append_nil,
      labels_append, List.mem_append]
    rw [List.getElem?_append] at he
    split at he
    · exact .inl (h.cover i e' he hs)
    · have : i = E.length := by
        have := (List.getElem?_eq_some_iff.1 he).1
        simp at this
        omega
      subst this
      simp at he
      subst he
      exact .inr (hc hs)

theorem Rel.leaf {E g} (h : Rel E g) {e l} (hl : Event.leaf? e = some l) :
    Rel (E ++ [e]) (g ++ [[.leaf l]]) := by
  refine h.push (.leaf e l (by simp) hl) (by simp) (by simp) ?_
  cases e <;> simp_all [Event.leaf?, Event.isStart]

theorem Rel.finish {E g} (h : Rel E g) : Rel (E ++ [.finishNode]) (g ++ [[.finish]]) :=
  h.push (.finish (by simp)) (by simp) (by simp) (by simp [Event.isStart])

theorem Rel.start {E g} (h : Rel E g) :
    Rel (E ++ [.placeholder]) (g ++ [[.start E.length none]]) :=
  h.push (.chain [.start E.length none] (.hole _ (by simp))) (by simp) (by simp) (by simp)

/-! ## Completing a marker -/

/-- Gives the open start operation with label `p` its kind. -/
def giveKind (p : Nat) (k : SyntaxKind) : Op → Op
  | .start q none => if q = p then .start q (some k) else .start q none
  | op => op

@[simp] theorem label_giveKind (p k op) : (giveKind p k op).label? = op.label? := by
  unfold giveKind
  split
  · split <;> rfl
  · rfl

@[simp] theorem labels_map_giveKind (p k) (l : List Op) : labels (l.map (giveKind p k)) = labels l := by
  simp [labels, List.filterMap_map, Function.comp_def]

theorem giveKind_id {p k} {l : List Op} (h : Op.start p none ∉ l) : l.map (giveKind p k) = l := by
  conv => rhs; rw [← List.map_id l]
  apply List.map_congr_left
  intro op hop
  unfold giveKind
  split
  · split
    · subst_vars; exact absurd hop h
    · rfl
  · rfl

theorem getElem?_set_other {E : List α} {i p : Nat} {x : α} (hne : p ≠ i) : (E.set p x)[i]? = E[i]? := by
  rw [List.getElem?_set_ne hne]

theorem Linked.giveKind {E i l p k} (h : Linked E i l) (hp : E[p]? = some .placeholder) :
    Linked (E.set p (.startNode k none)) i (l.map (giveKind p k)) := by
  induction h with
  | hole i h =>
    by_cases hip : p = i
    · subst hip
      simp only [List.map_cons, Ludtwig.giveKind, List.map_nil, ↓reduceIte]
      exact .last p k (by rw [List.getElem?_set_self (List.getElem?_eq_some_iff.1 h).1])
    · have : i ≠ p := fun h => hip h.symm
      simp only [List.map_cons, Ludtwig.giveKind, List.map_nil, this, ↓reduceIte]
      exact .hole i (by rw [getElem?_set_other hip]; exact h)
  | last i k' h =>
    have hip : p ≠ i := by rintro rfl; simp [h] at hp
    exact .last i k' (by rw [getElem?_set_other hip]; exact h)
  | link i k' fp l h hf _ ih =>
    have hip : p ≠ i := by rintro rfl; simp [h] at hp
    exact .link i k' fp _ (by rw [getElem?_set_other hip]; exact h) hf ih

theorem GroupOk.giveKind {E i l p k} (h : GroupOk E i l) (hp : E[p]? = some .placeholder) :
    GroupOk (E.set p (.startNode k none)) i (l.map (giveKind p k)) := by
  cases h with
  | leaf e l h hl =>
    have hip : p ≠ i := by rintro rfl; rw [h] at hp; simp at hp; subst hp; simp [Event.leaf?] at hl
    exact .leaf e l (by rw [getElem?_set_other hip]; exact h) hl
  | finish h =>
    have hip : p ≠ i := by rintro rfl; simp [h] at hp
    exact .finish (by rw [getElem?_set_other hip]; exact h)
  | taken k' fp h =>
    have hip : p ≠ i := by rintro rfl; simp [h] at hp
    exact .taken k' fp (by rw [getElem?_set_other hip]; exact h)
  | takenHole h =>
    by_cases hip : p = i
    · subst hip
      exact .taken k none (by rw [List.getElem?_set_self (List.getElem?_eq_some_iff.1 h).1])
    · exact .takenHole (by rw [getElem?_set_other hip]; exact h)
  | chain l h =>
    rw [List.map_reverse]
    exact .chain _ (h.giveKind hp)

theorem Rel.giveKind {E g p k} (h : Rel E g) (hp : E[p]? = some .placeholder) :
    Rel (E.set p (.startNode k none)) (g.map (List.map (giveKind p k))) where
  len := by simp [h.len]
  ok := by
    intro i y hy
    rw [List.getElem?_map] at hy
    obtain ⟨x, hx, rfl⟩ := Option.map_eq_some_iff.1 hy
    exact (h.ok i x hx).giveKind hp
  nodup := by rw [← List.map_flatten, labels_map_giveKind]; exact h.nodup
  cover := by
    rw [← List.map_flatten, labels_map_giveKind]
    intro i e he hs
    by_cases hip : p = i
    · subst hip; exact h.cover p _ hp rfl
    · rw [getElem?_set_other hip] at he; exact h.cover i e he hs

/-! ## Preceding a completed node -/

/-- Puts an open start operation before the one with label `c`. -/
def before (c new : Nat) : Op → List Op
  | .start q k => if q = c then [.start new none, .start q k] else [.start q k]
  | op => [op]

/-- The same in the reversed order of chains. -/
def after (c new : Nat) : Op → List Op
  | .start q k => if q = c then [.start q k, .start new none] else [.start q k]
  | op => [op]

theorem before_id {c new} {l : List Op} (h : c ∉ labels l) : l.flatMap (before c new) = l := by
  induction l with
  | nil => rfl
  | cons op l ih =>
    cases op with
    | start q k =>
      simp at h
      have hq : q ≠ c := fun e => h.1 e.symm
      simp only [List.flatMap_cons, before, hq, ↓reduceIte, ih h.2, List.cons_append, List.nil_append]
    | finish => simp at h; simp only [List.flatMap_cons, before, ih h, List.cons_append, List.nil_append]
    | leaf x => simp at h; simp only [List.flatMap_cons, before, ih h, List.cons_append, List.nil_append]

theorem after_reverse (c new : Nat) (l : List Op) :
    l.reverse.flatMap (before c new) = (l.flatMap (after c new)).reverse := by
  induction l with
  | nil => rfl
  | cons op l ih =>
    rw [List.reverse_cons, List.flatMap_append, ih, List.flatMap_cons (xs := l), List.reverse_append]
    congr 1
    cases op with
    | start q k => simp only [List.flatMap_cons, List.flatMap_nil, before, after]; split <;> rfl
    | finish => rfl
    | leaf => rfl

theorem Linked.precede {E i l c k} (h : Linked E i l) (hc : E[c]? = some (.startNode k none)) :
    Linked (E.set c (.startNode k (some (E.length - c))) ++ [.placeholder]) i
      (l.flatMap (after c E.length)) := by
  have hlt := (List.getElem?_eq_some_iff.1 hc).1
  induction h with
  | hole i h =>
    have hip : c ≠ i := by rintro rfl; simp [h] at hc
    have hip' : i ≠ c := fun e => hip e.symm
    simp only [List.flatMap_cons, after, hip', ↓reduceIte, List.flatMap_nil, List.append_nil]
    exact .hole i (getElem?_append_some (by rw [getElem?_set_other hip]; exact h))
  | last i k' h =>
    by_cases hip : c = i
    · subst hip
      rw [h] at hc; simp at hc; subst hc
      simp only [List.flatMap_cons, after, ↓reduceIte, List.flatMap_nil, List.append_nil]
      refine .link c k' (E.length - c) _ (getElem?_append_some
        (by rw [List.getElem?_set_self hlt])) (by omega) ?_
      rw [show c + (E.length - c) = E.length by omega]
      exact .hole _ (by simp)
    · have hip' : i ≠ c := fun e => hip e.symm
      simp only [List.flatMap_cons, after, hip', ↓reduceIte, List.flatMap_nil, List.append_nil]
      exact .last i k' (getElem?_append_some (by rw [getElem?_set_other hip]; exact h))
  | link i k' fp l h hf _ ih =>
    have hip : c ≠ i := by rintro rfl; simp [h] at hc
    have hip' : i ≠ c := fun e => hip e.symm
    simp only [List.flatMap_cons, after, hip', ↓reduceIte, List.cons_append, List.nil_append]
    exact .link i k' fp _ (getElem?_append_some (by rw [getElem?_set_other hip]; exact h)) hf ih

theorem GroupOk.precede {E i l c k} (h : GroupOk E i l) (hc : E[c]? = some (.startNode k none)) :
    GroupOk (E.set c (.startNode k (some (E.length - c))) ++ [.placeholder]) i
      (l.flatMap (before c E.length)) := by
  have hlt := (List.getElem?_eq_some_iff.1 hc).1
  cases h with
  | leaf e l h hl =>
    have hip : c ≠ i := by rintro rfl; rw [h] at hc; simp at hc; subst hc; simp [Event.leaf?] at hl
    exact .leaf e l (getElem?_append_some (by rw [getElem?_set_other hip]; exact h)) hl
  | finish h =>
    have hip : c ≠ i := by rintro rfl; simp [h] at hc
    exact .finish (getElem?_append_some (by rw [getElem?_set_other hip]; exact h))
  | taken k' fp h =>
    by_cases hip : c = i
    · subst hip
      exact .taken k (some (E.length - c)) (getElem?_append_some (by rw [List.getElem?_set_self hlt]))
    · exact .taken k' fp (getElem?_append_some (by rw [getElem?_set_other hip]; exact h))
  | takenHole h =>
    have hip : c ≠ i := by rintro rfl; simp [h] at hc
    exact .takenHole (getElem?_append_some (by rw [getElem?_set_other hip]; exact h))
  | chain l h =>
    rw [after_reverse]
    exact .chain _ (h.precede hc)

theorem labels_before_perm (c new : Nat) (l : List Op) (hc : c ∈ labels l) (hn : (labels l).Nodup) :
    (labels (l.flatMap (before c new))).Perm (new :: labels l) := by
  induction l with
  | nil => simp at hc
  | cons op l ih =>
    cases op with
    | start q k =>
      simp only [labels_start, List.mem_cons, List.nodup_cons] at hc hn
      rw [List.flatMap_cons, labels_append]
      by_cases hq : q = c
      · subst hq
        rw [before_id hn.1]
        simp [before]
      · rcases hc with rfl | hc
        · exact absurd rfl hq
        · simp only [before, hq, ↓reduceIte, labels_start, labels_nil, List.cons_append,
            List.nil_append]
          exact ((ih hc hn.2).cons q).trans (.swap ..)
    | finish => simpa [before] using ih (by simpa using hc) (by simpa using hn)
    | leaf => simpa [before] using ih (by simpa using hc) (by simpa using hn)

theorem flatten_map_flatMap (g : List (List Op)) (f : Op → List Op) :
    (g.map (List.flatMap f)).flatten = g.flatten.flatMap f := by
  induction g with
  | nil => rfl
  | cons x g ih => simp [ih, List.flatMap_append]

theorem Rel.precede {E g c k} (h : Rel E g) (hc : E[c]? = some (.startNode k none)) :
    Rel (E.set c (.startNode k (some (E.length - c))) ++ [.placeholder])
      (g.map (List.flatMap (before c E.length)) ++ [[]]) := by
  have hlt := (List.getElem?_eq_some_iff.1 hc).1
  have hmem := h.cover c _ hc rfl
  have hperm := labels_before_perm c E.length g.flatten hmem h.nodup
  constructor
  · simp [h.len]
  · intro i y hy
    rw [List.getElem?_append] at hy
    split at hy
    · rw [List.getElem?_map] at hy
      obtain ⟨x, hx, rfl⟩ := Option.map_eq_some_iff.1 hy
      exact (h.ok i x hx).precede hc
    · have : i = E.length := by
        have := (List.getElem?_eq_some_iff.1 hy).1
        simp [h.len] at this
        simp [h.len] at *
        omega
      subst this
      simp [h.len] at hy
      subst hy
      exact .takenHole (by rw [List.getElem?_append_right] <;> simp)
  · simp only [List.flatten_append, List.flatten_cons, List.flatten_nil, List.append_nil]
    rw [flatten_map_flatMap, hperm.nodup_iff, List.nodup_cons]
    exact ⟨fun hm => absurd (h.labels_lt _ hm) (by omega), h.nodup⟩
  · intro i e he hs
    simp only [List.flatten_append, List.flatten_cons, List.flatten_nil, List.append_nil]
    rw [flatten_map_flatMap, hperm.mem_iff, List.mem_cons]
    rw [List.getElem?_append] at he
    split at he
    · right
      by_cases hip : c = i
      · subst hip; exact hmem
      · rw [getElem?_set_other hip] at he; exact h.cover i e he hs
    · left
      have := (List.getElem?_eq_some_iff.1 he).1
      simp at this
      rename_i h1
      simp at h1
      omega

theorem Rel.empty : Rel [] [] := ⟨rfl, by simp, by simp, by simp⟩

end Ludtwig
