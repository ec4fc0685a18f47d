import Verif.Parser.SinkLemmas

/-!
# The event collection follows the direct machine (helper lemmas for C07 and C08)
-/

namespace Ludtwig

/-- The labels of the nodes in a list of skeletons. -/
def nodeLabels : List Skel → List Nat
  | [] => []
  | .node p _ _ :: xs => p :: nodeLabels xs
  | .leaf _ :: xs => nodeLabels xs

@[simp] theorem nodeLabels_append (a b : List Skel) :
    nodeLabels (a ++ b) = nodeLabels a ++ nodeLabels b := by
  induction a with
  | nil => rfl
  | cons x a ih => cases x <;> simp [nodeLabels, ih]

/-- Open nodes are labelled in order. -/
def Ordered : Nat → List (Nat × List Skel) → Prop
  | _, [] => True
  | n, (p, _) :: fs => p < n ∧ Ordered p fs

/-- The children of the frames that were completed but not preceded have no forward parent. -/
def Free (E : List Event) (frames : List (Nat × List Skel)) : Prop :=
  ∀ p cs, (p, cs) ∈ frames → ∀ c ∈ nodeLabels cs, p < c → ∃ k, E[c]? = some (.startNode k none)

/-- The recorded events stand for the state of the direct machine. -/
structure Built (E : List Event) (om : List Nat) (d : Direct) : Prop where
  rel : ∃ g, Rel E g ∧ g.flatten = flatFrames d.done d.frames
  opened : om = d.frames.map (·.1)
  next : d.next = E.length
  ordered : Ordered E.length d.frames
  free : Free E d.frames

theorem Ordered.mono {n m fs} (h : Ordered n fs) (hnm : n ≤ m) : Ordered m fs := by
  cases fs with
  | nil => trivial
  | cons f fs => exact ⟨Nat.lt_of_lt_of_le h.1 hnm, h.2⟩

theorem Ordered.lt {n fs} (h : Ordered n fs) : ∀ p cs, (p, cs) ∈ fs → p < n := by
  induction fs generalizing n with
  | nil => simp
  | cons f fs ih =>
    intro p cs hm
    rcases List.mem_cons.1 hm with rfl | hm
    · exact h.1
    · have := ih h.2 p cs hm
      have := h.1
      omega

theorem Free.append {E fs} (h : Free E fs) (e) : Free (E ++ e) fs := by
  intro p cs hm c hc hlt
  obtain ⟨k, hk⟩ := h p cs hm c hc hlt
  exact ⟨k, getElem?_append_some hk⟩

theorem Free.cons {E fs} (h : Free E fs) {p cs}
    (hc : ∀ c ∈ nodeLabels cs, p < c → ∃ k, E[c]? = some (.startNode k none)) :
    Free E ((p, cs) :: fs) := by
  intro q ds hm c hcm hlt
  rcases List.mem_cons.1 hm with heq | hm
  · simp at heq
    obtain ⟨rfl, rfl⟩ := heq
    exact hc c hcm hlt
  · exact h q ds hm c hcm hlt

theorem Free.tail {E f fs} (h : Free E (f :: fs)) : Free E fs :=
  fun p cs hm => h p cs (List.mem_cons_of_mem _ hm)

theorem Free.head {E p cs fs} (h : Free E ((p, cs) :: fs)) :
    ∀ c ∈ nodeLabels cs, p < c → ∃ k, E[c]? = some (.startNode k none) :=
  h p cs (List.mem_cons_self ..)

theorem Built.empty : Built [] [] ⟨[], [], 0⟩ where
  rel := ⟨[], Rel.empty, by simp [flatFrames, flatAll]⟩
  opened := rfl
  next := rfl
  ordered := trivial
  free := by intro p cs hm; simp at hm

theorem Built.start {E om d} (h : Built E om d) :
    Built (E ++ [.placeholder]) (E.length :: om)
      { d with frames := (E.length, []) :: d.frames, next := E.length + 1 } := by
  obtain ⟨g, hg, hf⟩ := h.rel
  refine ⟨⟨_, hg.start, ?_⟩, by simp [h.opened], by simp, ?_, ?_⟩
  · simp [hf, flatFrames, flatAll]
  · exact ⟨by simp, h.ordered⟩
  · exact (h.free.append _).cons (by simp [nodeLabels])

theorem Built.leaf {E om d} (h : Built E om d) {e l} (hl : Event.leaf? e = some l) :
    Built (E ++ [e]) om { d.add (.leaf l) with next := E.length + 1 } := by
  obtain ⟨g, hg, hf⟩ := h.rel
  obtain ⟨done, frames, next⟩ := d
  cases frames with
  | nil =>
    refine ⟨⟨_, hg.leaf hl, ?_⟩, h.opened, by simp, trivial, by intro p cs hm; simp [Direct.add] at hm⟩
    simp [hf, flatFrames, flatAll, Direct.add, Skel.flat]
  | cons f fs =>
    obtain ⟨p, cs⟩ := f
    refine ⟨⟨_, hg.leaf hl, ?_⟩, h.opened, by simp, ?_, ?_⟩
    · simp [hf, flatFrames, flatAll, Direct.add, Skel.flat]
    · have := h.ordered
      exact ⟨by have := this.1; simp; omega, this.2⟩
    · refine (h.free.tail.append _).cons ?_
      intro c hc hlt
      simp [nodeLabels] at hc
      obtain ⟨k, hk⟩ := h.free.head c hc hlt
      exact ⟨k, getElem?_append_some hk⟩

/-- The innermost open node still has its placeholder. -/
theorem Built.hole {E om done p cs fs next} (h : Built E om ⟨done, (p, cs) :: fs, next⟩) :
    E[p]? = some .placeholder := by
  obtain ⟨g, hg, hf⟩ := h.rel
  apply hg.mem_hole
  rw [hf]
  simp [flatFrames]

theorem Built.complete {E om done p cs fs next} (h : Built E om ⟨done, (p, cs) :: fs, next⟩)
    (k : SyntaxKind) :
    Built (E.set p (.startNode k none) ++ [.finishNode]) (om.tail)
      { (⟨done, fs, next⟩ : Direct).add (.node p k cs) with next := E.length + 1 } := by
  have hp := h.hole
  have hlt := (List.getElem?_eq_some_iff.1 hp).1
  obtain ⟨g, hg, hf⟩ := h.rel
  have hrel := (hg.giveKind (k := k) hp).finish
  have hflat : ((g.map (List.map (giveKind p k))) ++ [[Op.finish]]).flatten =
      flatFrames done fs ++ (Skel.node p k cs).flat := by
    have hn := hg.nodup
    rw [hf] at hn
    simp only [flatFrames, labels_append, labels_start] at hn
    have hd := List.nodup_append.1 hn
    have h1 : p ∉ labels (flatFrames done fs) := fun hm => hd.2.2 p hm p (by simp) rfl
    have h2 : p ∉ labels (flatAll cs) := (List.nodup_cons.1 hd.2.1).1
    have hno : ∀ (l : List Op), p ∉ labels l → Op.start p none ∉ l := by
      intro l hl hm
      exact hl (by simp only [labels, List.mem_filterMap]; exact ⟨_, hm, rfl⟩)
    simp only [List.flatten_append, List.flatten_cons, List.flatten_nil, List.append_nil]
    rw [← List.map_flatten, hf]
    simp only [flatFrames, List.map_append, List.map_cons, giveKind_id (hno _ h1),
      giveKind_id (hno _ h2), Skel.flat]
    simp [giveKind]
  have hfree : ∀ q ds, (∀ c ∈ nodeLabels ds, q < c → ∃ k, E[c]? = some (.startNode k none)) →
      ∀ c ∈ nodeLabels ds, q < c → ∃ k', (E.set p (.startNode k none) ++ [.finishNode])[c]? =
        some (.startNode k' none) := by
    intro q ds hq c hc hlt'
    obtain ⟨k', hk'⟩ := hq c hc hlt'
    have hcp : p ≠ c := by rintro rfl; simp [hp] at hk'
    exact ⟨k', getElem?_append_some (by rw [getElem?_set_other hcp]; exact hk')⟩
  cases fs with
  | nil =>
    refine ⟨⟨_, hrel, ?_⟩, by rw [h.opened]; rfl, by simp, trivial, by intro p cs hm; simp [Direct.add] at hm⟩
    rw [hflat]
    simp [flatFrames, flatAll, Direct.add]
  | cons f fs =>
    obtain ⟨q, ds⟩ := f
    refine ⟨⟨_, hrel, ?_⟩, by rw [h.opened]; rfl, by simp, ?_, ?_⟩
    · rw [hflat]
      simp [flatFrames, flatAll, Direct.add]
    · have := h.ordered
      refine ⟨?_, this.2.2⟩
      have h1 := this.1
      have h2 := this.2.1
      simp
      omega
    · simp only [Direct.add]
      intro r es hm
      rcases List.mem_cons.1 hm with heq | hm
      · simp at heq
        obtain ⟨rfl, rfl⟩ := heq
        intro c hc hlt'
        simp only [nodeLabels_append, nodeLabels, List.mem_append, List.mem_singleton] at hc
        rcases hc with hc | hc
        · exact hfree r ds h.free.tail.head c hc hlt'
        · subst hc
          exact ⟨k, getElem?_append_some (by rw [List.getElem?_set_self hlt])⟩
      · exact hfree r es (h.free.tail.tail r es hm)

theorem mem_flatFrames_node {c k ks a b} {p done fs} :
    Op.start c (some k) ∈ flatFrames done ((p, a ++ Skel.node c k ks :: b) :: fs) := by
  simp [flatFrames, flatAll, Skel.flat]

theorem Built.precede {E om done p fs next} {pre post ks : List Skel} {c k}
    (h : Built E om ⟨done, (p, pre ++ .node c k ks :: post) :: fs, next⟩) (hpc : p < c) :
    E[c]? = some (.startNode k none) ∧
    Built (E.set c (.startNode k (some (E.length - c))) ++ [.placeholder]) (E.length :: om)
      ⟨done, (E.length, .node c k ks :: post) :: (p, pre) :: fs, E.length + 1⟩ := by
  obtain ⟨g, hg, hf⟩ := h.rel
  have hc : E[c]? = some (.startNode k none) := by
    obtain ⟨k', hk'⟩ := h.free.head c (by simp [nodeLabels]) hpc
    obtain ⟨fp, hfp⟩ := hg.mem_start (p := c) (k := k) (by rw [hf]; exact mem_flatFrames_node)
    rw [hk'] at hfp
    simp at hfp
    rw [hk', hfp.1]
  have hclt := (List.getElem?_eq_some_iff.1 hc).1
  have hnod := hg.nodup
  rw [hf] at hnod
  simp only [flatFrames, flatAll_append, flatAll, Skel.flat, labels_append, labels_start,
    List.cons_append] at hnod
  refine ⟨hc, ⟨_, hg.precede hc, ?_⟩, by simp [h.opened], by simp, ?_, ?_⟩
  · simp only [List.flatten_append, List.flatten_cons, List.flatten_nil, List.append_nil]
    rw [flatten_map_flatMap, hf]
    simp only [flatFrames, flatAll_append, flatAll, Skel.flat, List.flatMap_append,
      List.flatMap_cons, List.cons_append]
    have e1 : labels (flatFrames done fs) ++ p :: (labels (flatAll pre) ++ c ::
        (labels (flatAll ks) ++ [] ++ labels (flatAll post))) =
        (labels (flatFrames done fs) ++ p :: labels (flatAll pre)) ++ c ::
        (labels (flatAll ks) ++ labels (flatAll post)) := by simp
    have hnod' : ((labels (flatFrames done fs) ++ p :: labels (flatAll pre)) ++ c ::
        (labels (flatAll ks) ++ labels (flatAll post))).Nodup := by
      rw [← e1]
      simpa using hnod
    have hd := List.nodup_append.1 hnod'
    have n1 : c ∉ labels (flatFrames done fs) :=
      fun hm => hd.2.2 c (by simp [hm]) c (by simp) rfl
    have n2 : c ∉ labels (flatAll pre) := fun hm => hd.2.2 c (by simp [hm]) c (by simp) rfl
    have n3 : c ∉ labels (flatAll ks) := fun hm => (List.nodup_cons.1 hd.2.1).1 (by simp [hm])
    have n4 : c ∉ labels (flatAll post) := fun hm => (List.nodup_cons.1 hd.2.1).1 (by simp [hm])
    rw [before_id n1, before_id n2, before_id n3, before_id n4]
    have : p ≠ c := by omega
    simp [before, this]
  · have h0 := h.ordered
    exact ⟨by simp, h0.1, h0.2⟩
  · have hset : ∀ q ds, (∀ x ∈ nodeLabels ds, q < x → x ≠ c) →
        (∀ x ∈ nodeLabels ds, q < x → ∃ k, E[x]? = some (.startNode k none)) →
        ∀ x ∈ nodeLabels ds, q < x →
          ∃ k', (E.set c (.startNode k (some (E.length - c))) ++ [.placeholder])[x]? =
            some (.startNode k' none) := by
      intro q ds hne hq x hx hlt
      obtain ⟨k', hk'⟩ := hq x hx hlt
      exact ⟨k', getElem?_append_some (by
        rw [getElem?_set_other (fun e => hne x hx hlt e.symm)]; exact hk')⟩
    have hsub : ∀ (l : List Skel), ∀ x ∈ nodeLabels l, x ∈ labels (flatAll l) := by
      intro l
      induction l with
      | nil => simp [nodeLabels]
      | cons y l ih =>
        intro x hx
        cases y with
        | leaf z => simp [nodeLabels] at hx; simp [flatAll, ih x hx]
        | node a b d =>
          simp [nodeLabels] at hx
          rcases hx with rfl | hx
          · simp [flatAll, Skel.flat]
          · simp [flatAll, ih x hx]
    have hsubf : ∀ (fs : List (Nat × List Skel)) q ds, (q, ds) ∈ fs → ∀ x ∈ nodeLabels ds,
        x ∈ labels (flatFrames done fs) := by
      intro fs
      induction fs with
      | nil => simp
      | cons f fs ih =>
        intro q ds hm x hx
        obtain ⟨r, es⟩ := f
        rcases List.mem_cons.1 hm with heq | hm
        · simp at heq
          obtain ⟨rfl, rfl⟩ := heq
          simp [flatFrames, hsub _ x hx]
        · simp [flatFrames, ih q ds hm x hx]
    have hd := List.nodup_append.1 hnod
    have hd2 := List.nodup_append.1 (List.nodup_cons.1 hd.2.1).2
    intro q ds hm
    rcases List.mem_cons.1 hm with heq | hm
    · simp at heq
      obtain ⟨rfl, rfl⟩ := heq
      intro x hx hlt
      exfalso
      have hxl := hsub _ x hx
      have : x < E.length := by
        apply hg.labels_lt
        rw [hf]
        simp only [flatFrames, flatAll_append, labels_append, labels_start, List.mem_append]
        simp [hxl]
      omega
    · rcases List.mem_cons.1 hm with heq | hm3
      · simp at heq
        obtain ⟨rfl, rfl⟩ := heq
        refine hset q ds ?_ ?_
        · rintro x hx _ rfl
          exact hd2.2.2 x (hsub _ x hx) x (by simp) rfl
        · intro x hx hlt
          exact h.free.head x (by simp [hx]) hlt
      · refine hset q ds ?_ ?_
        · rintro x hx _ rfl
          exact hd.2.2 x (hsubf fs q ds hm3 x hx) x (by simp) rfl
        · exact h.free.tail q ds hm3

theorem Skel_split {c} : ∀ {cs : List Skel}, c ∈ nodeLabels cs →
    ∃ pre k ks post, cs = pre ++ .node c k ks :: post ∧
      splitAtNode c cs = some (pre, .node c k ks :: post) ∧ c ∉ nodeLabels pre := by
  intro cs
  induction cs with
  | nil => simp [nodeLabels]
  | cons x cs ih =>
    intro h
    cases x with
    | leaf l =>
      simp [nodeLabels] at h
      obtain ⟨pre, k, ks, post, rfl, h2, h3⟩ := ih h
      exact ⟨.leaf l :: pre, k, ks, post, rfl, by simp [splitAtNode, h2], by simpa [nodeLabels] using h3⟩
    | node p k ks =>
      by_cases hp : p = c
      · subst hp
        exact ⟨[], k, ks, cs, rfl, by simp [splitAtNode], by simp [nodeLabels]⟩
      · simp [nodeLabels] at h
        rcases h with rfl | h
        · exact absurd rfl hp
        · obtain ⟨pre, k', ks', post, rfl, h2, h3⟩ := ih h
          refine ⟨.node p k ks :: pre, k', ks', post, rfl, by simp [splitAtNode, h2, hp], ?_⟩
          simp [nodeLabels, h3]
          exact fun e => hp e.symm

theorem splitAtNode_mem {c} : ∀ {cs pre post : List Skel}, splitAtNode c cs = some (pre, post) →
    c ∈ nodeLabels cs := by
  intro cs
  induction cs with
  | nil => intro pre post h; simp [splitAtNode] at h
  | cons x cs ih =>
    intro pre post h
    cases x with
    | leaf l =>
      simp only [splitAtNode, Option.map_eq_some_iff] at h
      obtain ⟨r, hr, _⟩ := h
      simpa [nodeLabels] using ih hr
    | node p k ks =>
      simp only [splitAtNode] at h
      split at h
      · subst_vars; simp [nodeLabels]
      · simp only [Option.map_eq_some_iff] at h
        obtain ⟨r, hr, _⟩ := h
        simp [nodeLabels, ih hr]

end Ludtwig
