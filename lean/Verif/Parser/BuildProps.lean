import Verif.Parser.DirectLemmas

/-!
# C08 and C07 for the event collection: markers, late wrapping and the sink
-/

namespace Ludtwig

/-- The event that records a token command (`add_token`, `add_next_n_tokens_as`,
`explicitly_consume_trivia`, event.rs 44–63). -/
def Leaf.event : Leaf → Event
  | .tok k => .addToken k
  | .ntok n k => .addNextNTokensAs n k
  | .triv => .explicitlyConsumeTrivia

/-- One command to the event collection (event.rs 44–119). -/
def record : Cmd → P Unit
  | .start => do let _ ← start; return ()
  | .complete m k => do let _ ← complete m k; return ()
  | .precede c => do let _ ← precede c; return ()
  | .leaf l => fun s => .ok ((), { s with events := s.events ++ [l.event] })

/-- A list of commands to the event collection. -/
def recordAll : List Cmd → P Unit
  | [] => return ()
  | c :: cs => do
    record c
    recordAll cs

@[simp] theorem leaf?_event (l : Leaf) : l.event.leaf? = some l := by cases l <;> rfl

theorem record_step {c : Cmd} {d d' : Direct} {s : PState} (h : Built s.events s.openMarkers d)
    (hd : d.step c = some d') :
    ∃ s', record c s = .ok ((), s') ∧ Built s'.events s'.openMarkers d' := by
  cases c with
  | start =>
    simp [Direct.step] at hd
    subst hd
    refine ⟨_, rfl, ?_⟩
    have := h.start
    simpa [h.next] using this
  | leaf l =>
    simp [Direct.step] at hd
    subst hd
    refine ⟨_, rfl, ?_⟩
    have := h.leaf (e := l.event) (l := l) (by simp)
    simpa [h.next] using this
  | complete m k =>
    obtain ⟨done, frames, next⟩ := d
    cases frames with
    | nil => simp [Direct.step] at hd
    | cons f fs =>
      obtain ⟨p, cs⟩ := f
      simp only [Direct.step] at hd
      split at hd
      · rename_i hpm
        subst hpm
        simp at hd
        subst hd
        have hb := h.complete k
        have ho := h.opened
        simp only [List.map_cons] at ho
        rw [ho] at hb
        refine ⟨{ s with
          events := s.events.set p (.startNode k none) ++ [.finishNode]
          openMarkers := fs.map (·.1) }, ?_, ?_⟩
        · have hh := h.hole
          show P.bind (complete p k) _ s = _
          simp [P.bind, complete, ho, hh]
          rfl
        · have hn := h.next
          simp only [List.tail_cons] at hb
          simp only at hn
          subst hn
          exact hb
      · simp at hd
  | precede c =>
    obtain ⟨done, frames, next⟩ := d
    cases frames with
    | nil => simp [Direct.step] at hd
    | cons f fs =>
      obtain ⟨p, cs⟩ := f
      simp only [Direct.step] at hd
      split at hd
      · rename_i hpc
        split at hd
        · simp at hd
        · rename_i before' after' hsp
          simp at hd
          subst hd
          obtain ⟨pre, k, ks, post, rfl, h2, _⟩ := Skel_split (splitAtNode_mem hsp)
          rw [h2] at hsp
          simp at hsp
          obtain ⟨rfl, rfl⟩ := hsp
          obtain ⟨h3, h4⟩ := h.precede hpc
          refine ⟨{ s with
            events := s.events.set c (.startNode k (some (s.events.length - c))) ++ [.placeholder]
            openMarkers := s.events.length :: s.openMarkers }, ?_, ?_⟩
          · show P.bind (Ludtwig.precede c) _ s = _
            simp [P.bind, Ludtwig.precede, h3]
            rfl
          · have hn := h.next
            simp only at hn
            rw [hn]
            exact h4
      · simp at hd

theorem record_run {cs : List Cmd} : ∀ {d d' : Direct} {s : PState},
    Built s.events s.openMarkers d → d.run cs = some d' →
    ∃ s', recordAll cs s = .ok ((), s') ∧ Built s'.events s'.openMarkers d' := by
  induction cs with
  | nil =>
    intro d d' s h hd
    simp [Direct.run] at hd
    subst hd
    exact ⟨s, rfl, h⟩
  | cons c cs ih =>
    intro d d' s h hd
    simp only [Direct.run] at hd
    split at hd
    · simp at hd
    · rename_i d1 h1
      obtain ⟨s1, h2, h3⟩ := record_step h h1
      obtain ⟨s2, h4, h5⟩ := ih h3 hd
      refine ⟨s2, ?_, h5⟩
      show P.bind (record c) _ s = _
      simp [P.bind, h2, h4]

theorem Direct.run_append {a b : List Cmd} : ∀ {d : Direct},
    d.run (a ++ b) = match d.run a with
      | none => none
      | some d' => d'.run b := by
  induction a with
  | nil => intro d; rfl
  | cons c a ih =>
    intro d
    simp only [List.cons_append, Direct.run]
    cases d.step c with
    | none => rfl
    | some d1 => exact ih

theorem recordAll_append (a b : List Cmd) (s : PState) :
    recordAll (a ++ b) s = match recordAll a s with
      | .error e => .error e
      | .ok (_, s') => recordAll b s' := by
  induction a generalizing s with
  | nil => rfl
  | cons c a ih =>
    have hb : ∀ l, recordAll (c :: l) s = P.bind (record c) (fun _ => recordAll l) s := fun _ => rfl
    rw [List.cons_append, hb, hb]
    simp only [P.bind]
    cases record c s with
    | error e => rfl
    | ok r => exact ih r.2

theorem last_group {E : List Event} {g : List (List Op)} (h : Rel E g)
    (hl : E.getLast? = some .finishNode) : g.getLast? = some [.finish] := by
  have hE : E ≠ [] := by rintro rfl; simp at hl
  have hlen : 0 < E.length := List.length_pos_iff.2 hE
  have hEl : E[E.length - 1]? = some .finishNode := by rw [← List.getLast?_eq_getElem?]; exact hl
  rw [List.getLast?_eq_getElem?, h.len]
  have hlt : E.length - 1 < g.length := by rw [h.len]; omega
  obtain ⟨x, hx⟩ : ∃ x, g[E.length - 1]? = some x := ⟨_, List.getElem?_eq_getElem hlt⟩
  rw [hx]
  cases h.ok _ x hx with
  | finish => rfl
  | leaf e l he hle => rw [hEl] at he; simp at he; subst he; simp [Event.leaf?] at hle
  | taken k fp he => rw [hEl] at he; simp at he
  | takenHole he => rw [hEl] at he; simp at he
  | chain l hlk =>
    cases hlk with
    | hole _ he => rw [hEl] at he; simp at he
    | last _ _ he => rw [hEl] at he; simp at he
    | link _ _ _ _ he => rw [hEl] at he; simp at he

/-- From the state of the direct machine to the tree of the sink. -/
theorem Built.sink {E om k m cs next trees} {ts : List Token}
    (h : Built E om ⟨[], [(m, cs)], next⟩)
    (hfill : fillAll ts (cs ++ [.leaf .triv]) = some (trees, [])) :
    sinkFinish ts (E.set m (.startNode k none) ++ [.finishNode]) = .ok (.node k trees) := by
  have hb := h.complete k
  obtain ⟨g, hg, hf⟩ := hb.rel
  refine sinkFinish_lemma hg (p := m) (cs := cs) (by simp) (last_group hg (by simp)) ?_ hfill
  rw [hf]
  simp [Direct.add, flatFrames, flatAll]

/-- **C08** — Wrapping a completed node late gives the same tree as building it directly. Run any
sequence of commands on the direct machine, which inserts a preceding parent at once, then let it
take the trivia at the end and close the last node; if that gives one tree for the tokens, then the
event collection accepts the same commands, leaves no marker open, and the sink, which resolves the
wrapping only at the end, builds exactly this tree. -/
theorem C08_late_wrapping_equals_direct (cmds : List Cmd) (m : Nat) (k : SyntaxKind)
    (ts : List Token) (root : Skel) (tree : Tree) (next : Nat) (s : PState)
    (hs : s.events = []) (ho : s.openMarkers = [])
    (hrun : (⟨[], [], 0⟩ : Direct).run (cmds ++ [.leaf .triv, .complete m k]) = some ⟨[root], [], next⟩)
    (hfill : root.fill ts = some ([tree], [])) :
    ∃ s', recordAll (cmds ++ [.complete m k]) s = .ok ((), s') ∧ s'.openMarkers = [] ∧
      sinkFinish ts s'.events = .ok tree := by
  rw [Direct.run_append] at hrun
  cases hr : (⟨[], [], 0⟩ : Direct).run cmds with
  | none => simp [hr] at hrun
  | some d =>
    have hb0 : Built s.events s.openMarkers ⟨[], [], 0⟩ := by rw [hs, ho]; exact Built.empty
    obtain ⟨s1, h1, h2⟩ := record_run hb0 hr
    rw [hr] at hrun
    obtain ⟨done, frames, n1⟩ := d
    cases frames with
    | nil => simp [Direct.run, Direct.step, Direct.add] at hrun
    | cons f fs =>
      obtain ⟨p, cs⟩ := f
      simp only [Direct.run, Direct.step, Direct.add] at hrun
      split at hrun
      · simp at hrun
      · rename_i d2 heq
        split at heq
        · rename_i hpm
          subst hpm
          cases fs with
          | cons f2 fs2 =>
            simp at heq
            subst heq
            simp at hrun
          | nil =>
            simp at heq
            subst heq
            simp at hrun
            obtain ⟨h3, h4⟩ := hrun
            have hd : done = [] := by
              cases done with
              | nil => rfl
              | cons a b => simp at h3
            subst hd
            simp at h3
            subst h3
            obtain ⟨s2, h5, h6⟩ := record_step (c := .complete p k)
              (d' := { (⟨[], [], n1⟩ : Direct).add (.node p k cs) with next := n1 + 1 }) h2
              (by simp [Direct.step])
            have ho2 : s1.openMarkers = [p] := h2.opened
            refine ⟨s2, ?_, h6.opened, ?_⟩
            · rw [recordAll_append, h1]
              show P.bind (record _) _ s1 = _
              simp only [P.bind, h5]
              rfl
            · have hev : s2.events = s1.events.set p (.startNode k none) ++ [.finishNode] := by
                have h7 : record (.complete p k) s1 = .ok ((), { s1 with
                    events := s1.events.set p (.startNode k none) ++ [.finishNode]
                    openMarkers := [] }) := by
                  show P.bind (complete p k) _ s1 = _
                  simp [P.bind, complete, ho2, h2.hole]
                  rfl
                rw [h7] at h5
                simp at h5
                rw [← h5]
              simp only [Skel.fill] at hfill
              split at hfill
              · simp at hfill
              · rename_i trees rest hfa
                simp at hfill
                obtain ⟨rfl, rfl⟩ := hfill
                rw [hev]
                exact h2.sink hfa
        · simp at heq

/-- The hypotheses hold for `a ~ b` with the left operand wrapped late, twice. -/
example :
    let cmds : List Cmd := [.start, .start, .leaf (.tok .TK_WORD), .complete 1 .TWIG_LITERAL_NAME,
      .precede 1, .leaf (.tok .TK_TILDE), .complete 4 .TWIG_EXPRESSION, .precede 4,
      .leaf (.tok .TK_WORD), .complete 7 .TWIG_BINARY_EXPRESSION]
    let ts : List Token := [⟨.TK_WORD, ['a'], ⟨0, 1⟩⟩, ⟨.TK_WHITESPACE, [' '], ⟨1, 2⟩⟩,
      ⟨.TK_TILDE, ['~'], ⟨2, 3⟩⟩, ⟨.TK_WORD, ['b'], ⟨3, 4⟩⟩, ⟨.TK_WHITESPACE, [' '], ⟨4, 5⟩⟩]
    ∃ root tree next,
      (⟨[], [], 0⟩ : Direct).run (cmds ++ [.leaf .triv, .complete 0 .ROOT]) = some ⟨[root], [], next⟩ ∧
      root.fill ts = some ([tree], []) ∧ tree =
        .node .ROOT [.node .TWIG_BINARY_EXPRESSION [.node .TWIG_EXPRESSION [
          .node .TWIG_LITERAL_NAME [.token .TK_WORD ['a']], .token .TK_WHITESPACE [' '],
          .token .TK_TILDE ['~']], .token .TK_WORD ['b']], .token .TK_WHITESPACE [' ']] :=
  ⟨_, _, _, rfl, rfl, rfl⟩

end Ludtwig
