import Verif.Lemmas.PacHeap
import Verif.Props.PacEq

/-!
# C63: states do not disturb each other

States are made of objects, some of them shared. However states are made from one another, each keeps the value it had when it was made, except for its `_eaten` marks,
and the values are those of the model of `PacGame.lean`. The marks are shared in a way that is described exactly.
-/

namespace Verif.Pac

namespace PHeap

/-! ### One call -/

theorem Live.frame {h h' : PHeap} {t : Ref} (hl : Live h t) (hf : Frame h.next h h') (hm : (h'.eaten (h.state t).eaten).length = (h.eaten (h.state t).eaten).length) :
    Live h' t ∧ h'.state t = h.state t ∧ h'.read t = { h.read t with eaten := h'.eaten (h.state t).eaten } := by
  have hs := hf.state t hl.self
  have hlt : ∀ {r : Ref}, r < h.next → r < h'.next := fun hr => lt_of_lt_of_le hr hf.next
  refine ⟨⟨hlt hl.self, ?_, ?_, ?_, ?_, ?_, ?_⟩, hs, ?_⟩
  · rw [hs]; exact hlt hl.caps
  · rw [hs]; exact fun r hr => hlt (hl.agents r hr)
  · rw [hs]
    intro r hr
    rw [hf.agent r (hl.agents r hr)]
    exact ⟨hlt (hl.confs r hr).1, hlt (hl.confs r hr).2⟩
  · rw [hs]; exact hlt hl.food
  · rw [hs]; exact hlt hl.eaten
  · rw [hs, hm]; exact hl.marks
  · have hag : (h.state t).agents.map h'.readAgent = (h.state t).agents.map h.readAgent := by
      refine List.map_congr_left fun r hr => ?_
      simp only [readAgent]
      rw [hf.agent r (hl.agents r hr), hf.conf _ (hl.confs r hr).1, hf.conf _ (hl.confs r hr).2]
    simp only [read]
    rw [hs, hag, hf.cells _ hl.food, hf.caps _ hl.caps]

theorem read_setState_eq (h : PHeap) (s : Ref) (i : ℕ) : (h.setState s fun o => { o with agentMoved := some i, score := o.score + o.scoreChange }).read s = bookKeep (h.read s) i := by
  simp [read, PHeap.setState, bookKeep]
  first | rfl | exact fun _ _ => rfl

/-- The two computations of a successor, on values and on objects. -/
theorem generate_spec {h : PHeap} {s : Ref} (hl : Live h s) (i : ℕ) (a : Dir) :
    match Pac.generateSuccessor (h.read s) i a with
    | .error e => (h.generateSuccessor s i a).1 = .error e ∧ Frame h.next h (h.generateSuccessor s i a).2 ∧ ∀ r < h.next, (h.generateSuccessor s i a).2.eaten r = h.eaten r
    | .ok v => ∃ t, (h.generateSuccessor s i a).1 = .ok t ∧ h.next ≤ t ∧ Live (h.generateSuccessor s i a).2 t ∧ Frame h.next h (h.generateSuccessor s i a).2 ∧
        (h.generateSuccessor s i a).2.read t = v ∧
        (if i = 0 then h.next ≤ ((h.generateSuccessor s i a).2.state t).eaten ∧ ∀ r < h.next, (h.generateSuccessor s i a).2.eaten r = h.eaten r
         else ((h.generateSuccessor s i a).2.state t).eaten = (h.state s).eaten ∧
          (h.generateSuccessor s i a).2.eaten = Function.update h.eaten (h.state s).eaten v.eaten) := by
  unfold Pac.generateSuccessor PHeap.generateSuccessor
  have hw : ((h.read s).win || (h.read s).lose) = ((h.state s).win || (h.state s).lose) := rfl
  rw [hw]
  by_cases hfin : ((h.state s).win || (h.state s).lose) = true
  · rw [if_pos hfin, if_pos hfin]
    exact ⟨rfl, Frame.refl _ _, fun _ _ => rfl⟩
  · rw [if_neg hfin, if_neg hfin]
    obtain ⟨co, cf, cr, ce, cref, _, _⟩ := copyState_spec hl
    generalize hp : h.copyState s = p at co cf cr ce cref
    obtain ⟨h0, t⟩ := p
    simp only at co cf cr ce cref ⊢
    by_cases hi : i = 0
    · subst hi
      simp only [if_true]
      set h1 := h0.newEaten (List.replicate (h0.state t).agents.length false) with e1
      set h2 := h1.setState t fun o => { o with eaten := h0.next } with e2
      have est : h2.state t = { h0.state t with eaten := h0.next } := by simp [e2, e1, PHeap.setState, PHeap.newEaten]
      have hlt : ∀ {r : Ref}, r < h0.next → r < h2.next := fun hr => Nat.lt_succ_of_lt hr
      have o2 : Own h.next h2 t := by
        refine ⟨⟨hlt co.self, ?_, ?_, ?_, ?_, ?_, ?_⟩, ?_, co.mine, ?_, ?_, ?_⟩
        · rw [est]; exact hlt co.caps
        · rw [est]; exact fun r hr => hlt (co.agents r hr)
        · rw [est]; exact fun r hr => ⟨hlt (co.confs r hr).1, hlt (co.confs r hr).2⟩
        · rw [est]; exact hlt co.food
        · rw [est]; exact Nat.lt_succ_self _
        · rw [est]
          show (Function.update h0.eaten h0.next _ h0.next).length = _
          rw [Function.update_self, List.length_replicate]
        · exact Nat.le_succ_of_le co.le
        · rw [est]; exact co.myCaps
        · rw [est]; exact co.myAgents
        · rw [est]; exact co.nodup
      have f2 : Frame h.next h h2 := by
        refine cf.trans ⟨Nat.le_succ _, fun _ _ => rfl, fun _ _ => rfl, fun _ _ => rfl, fun _ _ => rfl, fun r hr => ?_⟩
        exact Function.update_of_ne (Nat.ne_of_lt (lt_of_lt_of_le hr co.mine)) _ _
      have ee2 : ∀ r < h.next, h2.eaten r = h.eaten r := by
        intro r hr
        show Function.update h0.eaten h0.next _ r = _
        rw [Function.update_of_ne (Nat.ne_of_lt (lt_of_lt_of_le hr co.le)), ce]
      have r2 : h2.read t = { (h.read s).next with eaten := List.replicate (h.read s).next.agents.length false } := by
        have hn : (h0.state t).agents.length = (h.read s).next.agents.length := by rw [← cr]; simp [read]
        rw [← cr]
        have : h2.read t = { h0.read t with eaten := List.replicate (h0.state t).agents.length false } := by
          simp [e2, e1, read, PHeap.setState, PHeap.newEaten]
          first | rfl | exact fun _ _ => rfl
        rw [this, hn, ← cr]
      have href2 : (h2.state t).eaten = h0.next := by rw [est]
      rw [← r2]
      obtain ⟨x, xe⟩ := pacApply_sim o2 a
      generalize h2.pacApply t a = y at x xe
      obtain ⟨y1, h3⟩ := y
      cases hpa : Pac.pacApply (h2.read t) a with
      | error e =>
        rw [hpa] at x
        obtain ⟨x1, x2, x3⟩ := x
        simp only at x1 x2 x3
        subst x1
        exact ⟨rfl, f2.trans x2, fun r hr => by show h3.eaten r = _; rw [x3, ee2 r hr]⟩
      | ok v1 =>
        rw [hpa] at x
        obtain ⟨x1, x2, x3⟩ := x
        simp only at x1 x2 x3 xe
        subst x1
        simp only
        set h4 := h3.setState t fun o => { o with scoreChange := o.scoreChange - 1 } with e4
        have s4 : Step h.next t h3 h4 := Step.setState x2.own _ rfl rfl rfl x2.own.food
        have r4 : h4.read t = { v1 with scoreChange := v1.scoreChange - 1 } := by
          rw [← x3]
          simp [e4, read, PHeap.setState]
          first | rfl | exact fun _ _ => rfl
        rw [← r4]
        have z := checkDeath_sim s4.own 0
        generalize h4.checkDeath t 0 = w at z
        obtain ⟨w1, h5⟩ := w
        have s24 := x2.trans s4
        have e24 : h4.eaten = h2.eaten := xe
        cases hcd : Pac.checkDeath (h4.read t) 0 with
        | error e =>
          rw [hcd] at z
          obtain ⟨z1, z2, z3⟩ := z
          simp only at z1 z2 z3
          subst z1
          exact ⟨rfl, (f2.trans s24.frame).trans z2, fun r hr => by show h5.eaten r = _; rw [z3, e24, ee2 r hr]⟩
        | ok v2 =>
          rw [hcd] at z
          obtain ⟨z1, z2, z3⟩ := z
          simp only at z1 z2 z3
          subst z1
          simp only
          have s6 : Step h.next t h5 (h5.setState t fun o => { o with agentMoved := some 0, score := o.score + o.scoreChange }) :=
            Step.setState z2.own _ rfl rfl rfl z2.own.food
          have s26 := (s24.trans z2).trans s6
          refine ⟨t, rfl, co.mine, s26.own.toLive, f2.trans s26.frame, ?_, ?_⟩
          · rw [read_setState_eq, z3]
          · refine ⟨?_, fun r hr => ?_⟩
            · rw [s26.ref, href2]; exact co.le
            · rw [s26.eaten, href2, Function.update_of_ne (Nat.ne_of_lt (lt_of_lt_of_le hr co.le)), ee2 r hr]
    · simp only [if_neg hi]
      rw [← cr]
      obtain ⟨x, xe, xp⟩ := ghostApply_sim co a i
      generalize h0.ghostApply t a i = y at x xe xp
      obtain ⟨y1, h3⟩ := y
      cases hpa : Pac.ghostApply (h0.read t) a i with
      | error e =>
        rw [hpa] at x
        obtain ⟨x1, x2, x3⟩ := x
        simp only at x1 x2 x3
        subst x1
        exact ⟨rfl, cf.trans x2, fun r hr => by show h3.eaten r = _; rw [x3, ce]⟩
      | ok v1 =>
        rw [hpa] at x
        obtain ⟨x1, x2, x3⟩ := x
        simp only at x1 x2 x3 xe xp
        subst x1
        obtain ⟨g, hg, hpriv⟩ := xp rfl
        simp only [hg]
        obtain ⟨d1, d2, d3⟩ := decrement_sim x2.own hg hpriv
        rw [x3] at d2
        rw [← d2]
        have z := checkDeath_sim d1.own i
        generalize (h3.decrement g).checkDeath t i = w at z
        obtain ⟨w1, h5⟩ := w
        have s24 := x2.trans d1
        have e24 : (h3.decrement g).eaten = h0.eaten := d3.trans xe
        cases hcd : Pac.checkDeath ((h3.decrement g).read t) i with
        | error e =>
          rw [hcd] at z
          obtain ⟨z1, z2, z3⟩ := z
          simp only at z1 z2 z3
          subst z1
          exact ⟨rfl, (cf.trans s24.frame).trans z2, fun r hr => by show h5.eaten r = _; rw [z3, e24, ce]⟩
        | ok v2 =>
          rw [hcd] at z
          obtain ⟨z1, z2, z3⟩ := z
          simp only at z1 z2 z3
          subst z1
          simp only
          have s6 : Step h.next t h5 (h5.setState t fun o => { o with agentMoved := some i, score := o.score + o.scoreChange }) :=
            Step.setState z2.own _ rfl rfl rfl z2.own.food
          have s26 := (s24.trans z2).trans s6
          have hread : (h5.setState t fun o => { o with agentMoved := some i, score := o.score + o.scoreChange }).read t = bookKeep v2 i := by
            rw [read_setState_eq, z3]
          refine ⟨t, rfl, co.mine, s26.own.toLive, cf.trans s26.frame, hread, ?_, ?_⟩
          · rw [s26.ref, cref]
          · have he := s26.eaten
            rw [cref] at he
            rw [he, ce]
            congr 1
            have h1 := congrArg GState.eaten hread
            rw [← h1]
            simp only [read]
            rw [s26.ref, cref]

theorem deepCopy_spec {h : PHeap} {s : Ref} (hl : Live h s) :
    (h.deepCopy s).2.eaten = h.eaten ∧ Frame h.next h (h.deepCopy s).2 ∧
    match (h.read s).deepCopy with
    | .error e => (h.deepCopy s).1 = .error e
    | .ok v => ∃ t, (h.deepCopy s).1 = .ok t ∧ h.next ≤ t ∧ Live (h.deepCopy s).2 t ∧ (h.deepCopy s).2.read t = v ∧
        ((h.deepCopy s).2.state t).eaten = (h.state s).eaten := by
  unfold PHeap.deepCopy GState.deepCopy
  obtain ⟨co, cf, cr, ce, cref, clay, cdata⟩ := copyState_spec hl
  generalize hp : h.copyState s = p at co cf cr ce cref clay cdata
  obtain ⟨h0, t⟩ := p
  simp only at co cf cr ce cref clay cdata ⊢
  set h1 := h0.newCells (h0.cells (h.state s).food.data) with e1
  have s1 : Step h.next t h0 h1 := Step.newCells co _
  set h2 := h1.setState t fun o => { o with food := ⟨o.food.width, o.food.height, h0.next⟩ } with e2
  have s2 : Step h.next t h1 h2 := Step.setState s1.own _ rfl rfl rfl (Nat.lt_succ_self _)
  have r2 : h2.read t = (h.read s).next := by
    rw [← cr]
    simp [e2, e1, read, PHeap.setState, PHeap.newCells, cdata]
    first | rfl | exact fun _ _ => rfl
  have hlay : (h.read s).layout = (h.state s).layout := rfl
  rw [hlay]
  cases hd : (h.state s).layout.deepCopy with
  | error e => exact ⟨ce, (cf.trans s1.frame).trans s2.frame, rfl⟩
  | ok l =>
    simp only
    have s3 : Step h.next t h2 (h2.setState t fun o =>
        { o with layout := l, agentMoved := (h.state s).agentMoved, foodEaten := (h.state s).foodEaten, capsuleEaten := (h.state s).capsuleEaten }) :=
      Step.setState s2.own _ rfl rfl rfl s2.own.food
    have s13 := (s1.trans s2).trans s3
    refine ⟨ce, cf.trans s13.frame, t, rfl, co.mine, s13.own.toLive, ?_, by rw [s13.ref, cref]⟩
    rw [← r2]
    simp [read, PHeap.setState]
    first | rfl | exact fun _ _ => rfl

theorem placeAgents_spec (max : ℕ) : ∀ (l : List (Bool × (ℤ × ℤ))) (k : ℕ) (h : PHeap),
    h.next ≤ (placeAgents max h k l).1.next ∧ (∀ r < h.next, (placeAgents max h k l).1.conf r = h.conf r) ∧ (∀ r < h.next, (placeAgents max h k l).1.agent r = h.agent r) ∧
    (placeAgents max h k l).1.cells = h.cells ∧ (placeAgents max h k l).1.caps = h.caps ∧ (placeAgents max h k l).1.eaten = h.eaten ∧
    (placeAgents max h k l).1.state = h.state ∧
    (∀ r ∈ (placeAgents max h k l).2, r < (placeAgents max h k l).1.next ∧ ((placeAgents max h k l).1.agent r).conf < (placeAgents max h k l).1.next ∧
      ((placeAgents max h k l).1.agent r).start < (placeAgents max h k l).1.next) ∧
    (placeAgents max h k l).2.map (placeAgents max h k l).1.readAgent = Pac.placeAgents max k l := by
  have key : ∀ (b : Bool) (pos : ℤ × ℤ) (h h' : PHeap) (refs : List Ref) (ag : List Agent),
      (((h.newConf ⟨toPos pos, .stop⟩).newAgent ⟨h.next, h.next, b, 0⟩).next ≤ h'.next) →
      (∀ r < ((h.newConf ⟨toPos pos, .stop⟩).newAgent ⟨h.next, h.next, b, 0⟩).next, h'.conf r = ((h.newConf ⟨toPos pos, .stop⟩).newAgent ⟨h.next, h.next, b, 0⟩).conf r) →
      (∀ r < ((h.newConf ⟨toPos pos, .stop⟩).newAgent ⟨h.next, h.next, b, 0⟩).next, h'.agent r = ((h.newConf ⟨toPos pos, .stop⟩).newAgent ⟨h.next, h.next, b, 0⟩).agent r) →
      (∀ r ∈ refs, r < h'.next ∧ (h'.agent r).conf < h'.next ∧ (h'.agent r).start < h'.next) → refs.map h'.readAgent = ag →
      h.next ≤ h'.next ∧ (∀ r < h.next, h'.conf r = h.conf r) ∧ (∀ r < h.next, h'.agent r = h.agent r) ∧
      (∀ r ∈ (h.newConf ⟨toPos pos, .stop⟩).next :: refs, r < h'.next ∧ (h'.agent r).conf < h'.next ∧ (h'.agent r).start < h'.next) ∧
      ((h.newConf ⟨toPos pos, .stop⟩).next :: refs).map h'.readAgent = ⟨⟨toPos pos, .stop⟩, ⟨toPos pos, .stop⟩, b, 0⟩ :: ag := by
    intro b pos h h' refs ag hn hc ha hr hm
    have hn2 : ((h.newConf ⟨toPos pos, .stop⟩).newAgent ⟨h.next, h.next, b, 0⟩).next = h.next + 2 := rfl
    rw [hn2] at hn hc ha
    have hnew : (h.newConf ⟨toPos pos, .stop⟩).next = h.next + 1 := rfl
    have hag : h'.agent (h.next + 1) = ⟨h.next, h.next, b, 0⟩ := by
      rw [ha _ (by omega)]
      show Function.update h.agent (h.next + 1) _ (h.next + 1) = _
      rw [Function.update_self]
    have hcf : h'.conf h.next = ⟨toPos pos, .stop⟩ := by
      rw [hc _ (by omega)]
      show Function.update h.conf h.next _ h.next = _
      rw [Function.update_self]
    refine ⟨by omega, fun r hr => ?_, fun r hr => ?_, fun r hr' => ?_, ?_⟩
    · rw [hc r (by omega)]
      exact Function.update_of_ne (Nat.ne_of_lt hr) _ _
    · rw [ha r (by omega)]
      show Function.update h.agent (h.next + 1) _ r = _
      exact Function.update_of_ne (by omega) _ _
    · rw [hnew] at hr'
      rcases List.mem_cons.1 hr' with rfl | hr'
      · rw [hag]
        exact ⟨by omega, by show h.next < _; omega, by show h.next < _; omega⟩
      · exact hr r hr'
    · rw [hnew, List.map_cons, hm]
      congr 1
      simp only [readAgent, hag, hcf]
  intro l
  induction l with
  | nil => intro k h; exact ⟨le_refl _, fun _ _ => rfl, fun _ _ => rfl, rfl, rfl, rfl, rfl, by simp [placeAgents], rfl⟩
  | cons x t ih =>
    intro k h
    obtain ⟨pac, pos⟩ := x
    cases pac with
    | true =>
      obtain ⟨a1, a2, a3, a4, a5, a6, a7, a8, a9⟩ := ih k ((h.newConf ⟨toPos pos, .stop⟩).newAgent ⟨h.next, h.next, true, 0⟩)
      obtain ⟨b1, b2, b3, b4, b5⟩ := key true pos h _ _ _ a1 a2 a3 a8 a9
      exact ⟨b1, b2, b3, a4, a5, a6, a7, b4, b5⟩
    | false =>
      by_cases hk : k = max
      · have h1 : placeAgents max h k ((false, pos) :: t) = placeAgents max h k t := by simp [placeAgents, hk]
        have h2 : Pac.placeAgents max k ((false, pos) :: t) = Pac.placeAgents max k t := by simp [Pac.placeAgents, hk]
        rw [h1, h2]
        exact ih k h
      · have h1 : placeAgents max h k ((false, pos) :: t) =
            ((placeAgents max ((h.newConf ⟨toPos pos, .stop⟩).newAgent ⟨h.next, h.next, false, 0⟩) (k + 1) t).1, (h.newConf ⟨toPos pos, .stop⟩).next ::
              (placeAgents max ((h.newConf ⟨toPos pos, .stop⟩).newAgent ⟨h.next, h.next, false, 0⟩) (k + 1) t).2) := by simp [placeAgents, hk]
        have h2 : Pac.placeAgents max k ((false, pos) :: t) = ⟨⟨toPos pos, .stop⟩, ⟨toPos pos, .stop⟩, false, 0⟩ :: Pac.placeAgents max (k + 1) t := by
          simp [Pac.placeAgents, hk]
        rw [h1, h2]
        obtain ⟨a1, a2, a3, a4, a5, a6, a7, a8, a9⟩ := ih (k + 1) ((h.newConf ⟨toPos pos, .stop⟩).newAgent ⟨h.next, h.next, false, 0⟩)
        obtain ⟨b1, b2, b3, b4, b5⟩ := key false pos h _ _ _ a1 a2 a3 a8 a9
        exact ⟨b1, b2, b3, a4, a5, a6, a7, b4, b5⟩

theorem initState_spec (h : PHeap) (l : Layout) (n : ℕ) :
    h.next ≤ (h.initState l n).2 ∧ Live (h.initState l n).1 (h.initState l n).2 ∧ Frame h.next h (h.initState l n).1 ∧
    (h.initState l n).1.read (h.initState l n).2 = GState.init l n ∧ h.next ≤ ((h.initState l n).1.state (h.initState l n).2).eaten ∧
    ∀ r < h.next, (h.initState l n).1.eaten r = h.eaten r := by
  set h1 := h.newCells l.food.data with e1
  set h2 := h1.newCaps l.capsules with e2
  obtain ⟨a1, a2, a3, a4, a5, a6, a7, a8, a9⟩ := placeAgents_spec n l.agentPositions 0 h2
  set p := placeAgents n h2 0 l.agentPositions with ep
  set h3 := p.1.newEaten (p.2.map fun _ => false) with e3
  set o : StateObj := ⟨⟨l.food.width, l.food.height, h.next⟩, h1.next, p.2, l, p.1.next, 0, none, none, none, false, false, 0⟩ with eo
  have hdef : h.initState l n = (h3.newState o, h3.next) := rfl
  rw [hdef]
  dsimp only
  have hst : (h3.newState o).state h3.next = o := Function.update_self _ _ _
  have n1 : h1.next = h.next + 1 := rfl
  have n2 : h2.next = h.next + 2 := rfl
  have n3 : h3.next = p.1.next + 1 := rfl
  have n4 : (h3.newState o).next = p.1.next + 2 := rfl
  have he : (h3.newState o).eaten p.1.next = p.2.map fun _ => false := Function.update_self _ _ _
  refine ⟨by omega, ⟨by show h3.next < _; omega, ?_, ?_, ?_, ?_, ?_, ?_⟩, ⟨by omega, fun r hr => ?_, fun r hr => ?_, fun r hr => ?_, fun r hr => ?_, fun r hr => ?_⟩, ?_, ?_, fun r hr => ?_⟩
  · rw [hst]; show h1.next < _; omega
  · rw [hst]; intro r hr; have := (a8 r hr).1; omega
  · rw [hst]; intro r hr
    have h := a8 r hr
    exact ⟨by show (p.1.agent r).conf < _; omega, by show (p.1.agent r).start < _; omega⟩
  · rw [hst]; show h.next < _; omega
  · rw [hst]; show p.1.next < _; omega
  · rw [hst]; show ((h3.newState o).eaten p.1.next).length = p.2.length
    rw [he, List.length_map]
  · show p.1.conf r = _; rw [a2 r (by omega)]; rfl
  · show p.1.agent r = _; rw [a3 r (by omega)]; rfl
  · show p.1.cells r = _; rw [a4]; exact Function.update_of_ne (Nat.ne_of_lt hr) _ _
  · show p.1.caps r = _; rw [a5]; exact Function.update_of_ne (by omega) _ _
  · show Function.update p.1.state h3.next o r = _
    rw [Function.update_of_ne (by omega), a7]; rfl
  · have hra : p.2.map (h3.newState o).readAgent = Pac.placeAgents n 0 l.agentPositions := a9
    have hce : (h3.newState o).cells h.next = l.food.data := by
      show p.1.cells h.next = _
      rw [a4]; exact Function.update_self _ _ _
    have hca : (h3.newState o).caps h1.next = l.capsules := by
      show p.1.caps h1.next = _
      rw [a5]; exact Function.update_self _ _ _
    have hlen : (p.2.map fun _ => false) = (Pac.placeAgents n 0 l.agentPositions).map fun _ => false := by
      rw [← a9, List.map_map]; rfl
    simp only [read, hst, GState.init]
    rw [eo]
    simp only
    rw [hra, hce, hca, he, hlen]
  · rw [hst]; show h.next ≤ p.1.next; omega
  · show Function.update p.1.eaten p.1.next _ r = _
    rw [Function.update_of_ne (by omega), a6]; rfl

end PHeap

/-! ### Whole executions -/

/-- Something a program does: it makes the initial state of a layout, a successor of a state made before, or a copy of one. States are named by the order in which they
were made. -/
inductive Op where
  | init (l : Layout) (numGhosts : ℕ)
  | succ (k : ℕ) (agent : ℕ) (a : Dir)
  | copy (k : ℕ)

/-- The objects and the references of the states made so far. -/
structure Memory where
  heap : PHeap
  refs : List ℕ

/-- What a call did: it failed, or it made a state; naming a state that does not exist does nothing. -/
abbrev Outcome := Option (Except PErr Unit)

/-- Execution with objects. -/
def Memory.step (x : Memory) : Op → Outcome × Memory
  | .init l n => (some (.ok ()), ⟨(x.heap.initState l n).1, x.refs ++ [(x.heap.initState l n).2]⟩)
  | .succ k i a => match x.refs[k]? with
    | none => (none, x)
    | some r => match x.heap.generateSuccessor r i a with
      | (.error e, h) => (some (.error e), ⟨h, x.refs⟩)
      | (.ok t, h) => (some (.ok ()), ⟨h, x.refs ++ [t]⟩)
  | .copy k => match x.refs[k]? with
    | none => (none, x)
    | some r => match x.heap.deepCopy r with
      | (.error e, h) => (some (.error e), ⟨h, x.refs⟩)
      | (.ok t, h) => (some (.ok ()), ⟨h, x.refs ++ [t]⟩)

/-- The value of the state number `k`. -/
def Memory.value (x : Memory) (k : ℕ) : Option GState := (x.refs[k]?).map x.heap.read

/-- The specification: states are values, each with the number of its list of marks; the lists of marks are kept apart. -/
structure Pool where
  states : List (GState × ℕ)
  marks : List (List Bool)

/-- The value of the state number `k`: its own value with the marks of its list. -/
def Pool.value (p : Pool) (k : ℕ) : Option GState := match p.states[k]? with
  | none => none
  | some (v, g) => some { v with eaten := p.marks.getD g [] }

/-- A move of Pacman starts a new list of marks. A move of a ghost goes on with the list of the state before, for all states that have it. A copy has the list of the original. -/
def Pool.step (p : Pool) : Op → Outcome × Pool
  | .init l n => (some (.ok ()), ⟨p.states ++ [(GState.init l n, p.marks.length)], p.marks ++ [(GState.init l n).eaten]⟩)
  | .succ k i a => match p.states[k]? with
    | none => (none, p)
    | some (u, g) => match generateSuccessor { u with eaten := p.marks.getD g [] } i a with
      | .error e => (some (.error e), p)
      | .ok v =>
        if i = 0 then (some (.ok ()), ⟨p.states ++ [(v, p.marks.length)], p.marks ++ [v.eaten]⟩)
        else (some (.ok ()), ⟨p.states ++ [(v, g)], p.marks.set g v.eaten⟩)
  | .copy k => match p.states[k]? with
    | none => (none, p)
    | some (u, g) => match GState.deepCopy { u with eaten := p.marks.getD g [] } with
      | .error e => (some (.error e), p)
      | .ok v => (some (.ok ()), ⟨p.states ++ [(v, g)], p.marks⟩)

/-- All calls one after the other, with their outcomes. -/
def Memory.exec (x : Memory) : List Op → List Outcome × Memory
  | [] => ([], x)
  | c :: t => let y := x.step c; let z := y.2.exec t; (y.1 :: z.1, z.2)

def Pool.exec (p : Pool) : List Op → List Outcome × Pool
  | [] => ([], p)
  | c :: t => let y := p.step c; let z := y.2.exec t; (y.1 :: z.1, z.2)

/-- The objects represent the pool; `es` are the `_eaten` lists in the order of their numbers. -/
structure Represents (x : Memory) (p : Pool) (es : List ℕ) : Prop where
  length : x.refs.length = p.states.length
  nodup : es.Nodup
  bound : ∀ e ∈ es, e < x.heap.next
  marks : es.map x.heap.eaten = p.marks
  states : ∀ (k : ℕ) (v : GState) (g : ℕ), p.states[k]? = some (v, g) → ∃ r e, x.refs[k]? = some r ∧ es[g]? = some e ∧ PHeap.Live x.heap r ∧ (x.heap.state r).eaten = e ∧
    x.heap.read r = ({ v with eaten := p.marks.getD g [] } : GState)

theorem Represents.value {x : Memory} {p : Pool} {es : List ℕ} (h : Represents x p es) (k : ℕ) : x.value k = p.value k := by
  unfold Memory.value Pool.value
  cases hk : p.states[k]? with
  | none =>
    have : x.refs[k]? = none := by
      rw [List.getElem?_eq_none_iff] at hk ⊢
      rw [h.length]; exact hk
    rw [this]; rfl
  | some y =>
    obtain ⟨v, g⟩ := y
    obtain ⟨r, e, h1, _, _, _, h5⟩ := h.states k v g hk
    rw [h1, Option.map_some, h5]

theorem getD_of {A : Type} {l : List A} {g : ℕ} {a d : A} (h : l[g]? = some a) : l.getD g d = a := by
  rw [List.getD_eq_getElem?_getD, h]; rfl

/-- Old states after a call that leaves older objects alone except that the marks become `marks'`. -/
theorem Represents.old {x : Memory} {p : Pool} {es : List ℕ} (h : Represents x p es) {h' : PHeap} (hf : PHeap.Frame x.heap.next x.heap h') {marks' : List (List Bool)}
    (hm : es.map h'.eaten = marks') (hlen : ∀ e ∈ es, (h'.eaten e).length = (x.heap.eaten e).length) {k : ℕ} {v : GState} {g : ℕ} (hk : p.states[k]? = some (v, g)) :
    ∃ r e, x.refs[k]? = some r ∧ es[g]? = some e ∧ PHeap.Live h' r ∧ (h'.state r).eaten = e ∧ h'.read r = { v with eaten := marks'.getD g [] } := by
  obtain ⟨r, e, h1, h2, h3, h4, h5⟩ := h.states k v g hk
  obtain ⟨a, b, c⟩ := h3.frame hf (by rw [h4]; exact hlen e (List.mem_of_getElem? h2))
  refine ⟨r, e, h1, h2, a, by rw [b, h4], ?_⟩
  rw [c, h5, h4]
  have : marks'.getD g [] = h'.eaten e := getD_of (by rw [← hm, List.getElem?_map, h2]; rfl)
  rw [this]

theorem Represents.add {x : Memory} {p : Pool} {es : List ℕ} (h : Represents x p es) {h' : PHeap} (hf : PHeap.Frame x.heap.next x.heap h') {t : ℕ} (hl : PHeap.Live h' t)
    {marks' : List (List Bool)} {es' : List ℕ} (hes : es <+: es') (hn : es'.Nodup) (hb : ∀ e ∈ es', e < h'.next) (hm : es'.map h'.eaten = marks')
    (hlen : ∀ e ∈ es, (h'.eaten e).length = (x.heap.eaten e).length) {v : GState} {g : ℕ} (hg : es'[g]? = some (h'.state t).eaten)
    (hr : h'.read t = { v with eaten := (h'.read t).eaten }) :
    Represents ⟨h', x.refs ++ [t]⟩ ⟨p.states ++ [(v, g)], marks'⟩ es' := by
  have hpre : ∀ g e : ℕ, es[g]? = some e → es'[g]? = some e := by
    intro g e he
    obtain ⟨s, rfl⟩ := hes
    rw [List.getElem?_append_left (List.getElem?_eq_some_iff.1 he).1, he]
  refine ⟨by simp [h.length], hn, hb, hm, fun k w g' hk => ?_⟩
  simp only at hk ⊢
  by_cases hlt : k < p.states.length
  · rw [List.getElem?_append_left hlt] at hk
    obtain ⟨r, e, h1, h2, h3, h4, h5⟩ := h.states k w g' hk
    obtain ⟨a, b, c⟩ := h3.frame hf (by rw [h4]; exact hlen e (List.mem_of_getElem? h2))
    refine ⟨r, e, ?_, hpre g' e h2, a, by rw [b, h4], ?_⟩
    · rw [List.getElem?_append_left (by rw [h.length]; exact hlt), h1]
    · rw [c, h5, h4]
      have : marks'.getD g' [] = h'.eaten e := getD_of (by rw [← hm, List.getElem?_map, hpre g' e h2]; rfl)
      rw [this]
  · have hkl : k = p.states.length := by
      have h1 := (List.getElem?_eq_some_iff.1 hk).1
      rw [List.length_append, List.length_singleton] at h1
      omega
    subst hkl
    rw [List.getElem?_append_right (le_refl _), Nat.sub_self, List.getElem?_cons_zero] at hk
    cases hk
    refine ⟨t, _, ?_, hg, hl, rfl, ?_⟩
    · rw [← h.length, List.getElem?_append_right (le_refl _), Nat.sub_self]; rfl
    · have : marks'.getD g [] = h'.eaten (h'.state t).eaten := getD_of (by rw [← hm, List.getElem?_map, hg]; rfl)
      rw [this]
      exact hr

/-- **C63** One call: the outcomes are the same, and the objects represent the states again. -/
theorem step_represents {x : Memory} {p : Pool} {es : List ℕ} (h : Represents x p es) (c : Op) :
    (x.step c).1 = (p.step c).1 ∧ ∃ es', Represents (x.step c).2 (p.step c).2 es' := by
  have hmarks : p.marks.length = es.length := by rw [← h.marks, List.length_map]
  cases c with
  | init l n =>
    obtain ⟨a1, a2, a3, a4, a5, a6⟩ := PHeap.initState_spec x.heap l n
    refine ⟨rfl, es ++ [((x.heap.initState l n).1.state (x.heap.initState l n).2).eaten], ?_⟩
    refine h.add a3 a2 (List.prefix_append _ _) ?_ ?_ ?_ ?_ ?_ ?_
    · rw [List.nodup_append]
      refine ⟨h.nodup, by simp, fun e he e' he' => ?_⟩
      rw [List.mem_singleton] at he'
      have := h.bound e he
      omega
    · intro e he
      rcases List.mem_append.1 he with he | he
      · exact lt_of_lt_of_le (h.bound e he) a3.next
      · rw [List.mem_singleton] at he; rw [he]; exact a2.eaten
    · rw [List.map_append, ← h.marks]
      congr 1
      · exact List.map_congr_left fun e he => a6 e (h.bound e he)
      · rw [List.map_singleton]
        have := congrArg GState.eaten a4
        rw [← this]
        rfl
    · intro e he; rw [a6 e (h.bound e he)]
    · rw [hmarks, List.getElem?_append_right (le_refl _), Nat.sub_self]; rfl
    · rw [a4]
  | succ k i a =>
    unfold Memory.step Pool.step
    cases hk : p.states[k]? with
    | none =>
      have : x.refs[k]? = none := by
        rw [List.getElem?_eq_none_iff] at hk ⊢
        rw [h.length]; exact hk
      simp only [this, hk]
      exact ⟨trivial, es, h⟩
    | some y =>
      obtain ⟨u, g⟩ := y
      obtain ⟨r, e, h1, h2, h3, h4, h5⟩ := h.states k u g hk
      have hgs := PHeap.generate_spec h3 i a
      rw [h5] at hgs
      simp only [h1, hk]
      generalize x.heap.generateSuccessor r i a = y at hgs
      obtain ⟨y1, h'⟩ := y
      cases hv : generateSuccessor { u with eaten := p.marks.getD g [] } i a with
      | error er =>
        rw [hv] at hgs
        obtain ⟨b1, b2, b3⟩ := hgs
        simp only at b1 b2 b3
        subst b1
        refine ⟨rfl, es, ⟨h.length, h.nodup, fun e he => lt_of_lt_of_le (h.bound e he) b2.next, ?_, fun k v g hk => ?_⟩⟩
        · show es.map h'.eaten = _
          rw [← h.marks]
          exact List.map_congr_left fun e he => b3 e (h.bound e he)
        · exact h.old b2 (by rw [← h.marks]; exact List.map_congr_left fun e he => b3 e (h.bound e he)) (fun e he => by rw [b3 e (h.bound e he)]) hk
      | ok v =>
        rw [hv] at hgs
        obtain ⟨t, b1, b2, b3, b4, b5, b6⟩ := hgs
        simp only at b1 b2 b3 b4 b5 b6
        subst b1
        by_cases hi : i = 0
        · rw [if_pos hi] at b6
          obtain ⟨c1, c2⟩ := b6
          simp only [if_pos hi]
          refine ⟨trivial, es ++ [(h'.state t).eaten], ?_⟩
          refine h.add b4 b3 (List.prefix_append _ _) ?_ ?_ ?_ ?_ ?_ ?_
          · rw [List.nodup_append]
            refine ⟨h.nodup, by simp, fun e he e' he' => ?_⟩
            rw [List.mem_singleton] at he'
            have := h.bound e he
            omega
          · intro e he
            rcases List.mem_append.1 he with he | he
            · exact lt_of_lt_of_le (h.bound e he) b4.next
            · rw [List.mem_singleton] at he; rw [he]; exact b3.eaten
          · rw [List.map_append, ← h.marks]
            congr 1
            · exact List.map_congr_left fun e he => c2 e (h.bound e he)
            · rw [List.map_singleton, ← b5]
              rfl
          · intro e he; rw [c2 e (h.bound e he)]
          · rw [hmarks, List.getElem?_append_right (le_refl _), Nat.sub_self]; rfl
          · rw [b5]
        · rw [if_neg hi] at b6
          obtain ⟨c1, c2⟩ := b6
          simp only [if_neg hi]
          refine ⟨trivial, es, ?_⟩
          rw [h4] at c1 c2
          have hve : v.eaten = h'.eaten e := by rw [← b5]; show h'.eaten (h'.state t).eaten = _; rw [c1]
          have hlen : v.eaten.length = (x.heap.eaten e).length := by
            have m1 := b3.marks
            have m2 := h3.marks
            rw [c1, ← hve] at m1
            rw [h4] at m2
            rw [m1, m2]
            -- the number of agents does not change
            have hfix := congrArg (fun f : Layout × List (Config × Bool) => f.2.length) (step_fixed hv)
            simp only [GState.fixed, List.length_map] at hfix
            have l1 : (h'.state t).agents.length = v.agents.length := by rw [← b5]; simp [PHeap.read]
            have l2 : (x.heap.state r).agents.length = u.agents.length := by
              have := congrArg (fun s : GState => s.agents.length) h5
              simpa [PHeap.read] using this
            rw [l1, l2, hfix]
          refine h.add b4 b3 (List.prefix_refl _) h.nodup (fun e he => lt_of_lt_of_le (h.bound e he) b4.next) ?_ ?_ ?_ ?_
          · rw [c2, ← h.marks]
            exact PHeap.map_set_one h.nodup h2 (g := Function.update x.heap.eaten e v.eaten) (g' := x.heap.eaten)
              (fun a _ ha => Function.update_of_ne ha _ _) |>.trans (by rw [Function.update_self])
          · intro e' he'
            rw [c2]
            by_cases hee : e' = e
            · subst hee; rw [Function.update_self, hlen]
            · rw [Function.update_of_ne hee]
          · rw [c1]; exact h2
          · rw [b5]
  | copy k =>
    unfold Memory.step Pool.step
    cases hk : p.states[k]? with
    | none =>
      have : x.refs[k]? = none := by
        rw [List.getElem?_eq_none_iff] at hk ⊢
        rw [h.length]; exact hk
      simp only [this, hk]
      exact ⟨trivial, es, h⟩
    | some y =>
      obtain ⟨u, g⟩ := y
      obtain ⟨r, e, h1, h2, h3, h4, h5⟩ := h.states k u g hk
      obtain ⟨b1, b2, b3⟩ := PHeap.deepCopy_spec h3
      rw [h5] at b3
      simp only [h1, hk]
      generalize x.heap.deepCopy r = y at b1 b2 b3
      obtain ⟨y1, h'⟩ := y
      simp only at b1 b2
      cases hv : GState.deepCopy { u with eaten := p.marks.getD g [] } with
      | error er =>
        rw [hv] at b3
        simp only at b3
        subst b3
        refine ⟨rfl, es, ⟨h.length, h.nodup, fun e he => lt_of_lt_of_le (h.bound e he) b2.next, ?_, fun k v g hk => ?_⟩⟩
        · show es.map h'.eaten = _
          rw [b1, h.marks]
        · exact h.old b2 (by rw [b1, h.marks]) (fun e he => by rw [b1]) hk
      | ok v =>
        rw [hv] at b3
        obtain ⟨t, d1, d2, d3, d4, d5⟩ := b3
        simp only at d1 d2 d3 d4 d5
        subst d1
        refine ⟨rfl, es, ?_⟩
        refine h.add b2 d3 (List.prefix_refl _) h.nodup (fun e he => lt_of_lt_of_le (h.bound e he) b2.next) (by rw [b1, h.marks]) (fun e he => by rw [b1]) ?_ ?_
        · rw [d5, h4]; exact h2
        · rw [d4]

theorem exec_represents (cs : List Op) : ∀ {x : Memory} {p : Pool} {es : List ℕ}, Represents x p es →
    (x.exec cs).1 = (p.exec cs).1 ∧ ∃ es', Represents (x.exec cs).2 (p.exec cs).2 es' := by
  induction cs with
  | nil => intro x p es h; exact ⟨rfl, es, h⟩
  | cons c t ih =>
    intro x p es h
    obtain ⟨h1, es1, h2⟩ := step_represents h c
    obtain ⟨h3, h4⟩ := ih h2
    refine ⟨?_, h4⟩
    show (x.step c).1 :: ((x.step c).2.exec t).1 = (p.step c).1 :: ((p.step c).2.exec t).1
    rw [h1, h3]

/-- A program starts without states, with any contents of unused memory. -/
def Memory.start (h : PHeap) : Memory := ⟨h, []⟩

def Pool.start : Pool := ⟨[], []⟩

/-- **C63** Whatever a program does with states, in any order and however often a state is used: every call fails with the same error or succeeds as for
the specification, and every state has the value of the specification. Objects shared between states are never changed through one of them, except for the lists of marks. -/
theorem C63_refines (h : PHeap) (cs : List Op) : ((Memory.start h).exec cs).1 = (Pool.start.exec cs).1 ∧
    ∀ k, ((Memory.start h).exec cs).2.value k = (Pool.start.exec cs).2.value k := by
  have h0 : Represents (Memory.start h) Pool.start [] := ⟨rfl, List.nodup_nil, by simp, rfl, by intro k v g hk; cases hk⟩
  obtain ⟨h1, es, h2⟩ := exec_represents cs h0
  exact ⟨h1, h2.value⟩

/-! ### States keep their values -/

/-- A state without its marks. -/
def GState.unmarked (s : GState) : GState := { s with eaten := [] }

theorem pool_step_keep (p : Pool) (c : Op) (k : ℕ) {y : GState × ℕ} (hk : p.states[k]? = some y) : (p.step c).2.states[k]? = some y := by
  have happ : ∀ z, (p.states ++ [z])[k]? = some y := fun z => by
    rw [List.getElem?_append_left (List.getElem?_eq_some_iff.1 hk).1, hk]
  cases c with
  | init l n => exact happ _
  | succ j i a =>
    unfold Pool.step
    cases hj : p.states[j]? with
    | none => simp only [hj]; exact hk
    | some z =>
      obtain ⟨u, g⟩ := z
      cases hv : generateSuccessor { u with eaten := p.marks.getD g [] } i a with
      | error e => simp only [hj, hv]; exact hk
      | ok v =>
        simp only [hj, hv]
        split <;> exact happ _
  | copy j =>
    unfold Pool.step
    cases hj : p.states[j]? with
    | none => simp only [hj]; exact hk
    | some z =>
      obtain ⟨u, g⟩ := z
      cases hv : GState.deepCopy { u with eaten := p.marks.getD g [] } with
      | error e => simp only [hj, hv]; exact hk
      | ok v => simp only [hj, hv]; exact happ _

theorem pool_exec_keep (cs : List Op) : ∀ (p : Pool) (k : ℕ) {y : GState × ℕ}, p.states[k]? = some y → (p.exec cs).2.states[k]? = some y := by
  induction cs with
  | nil => intro p k y hk; exact hk
  | cons c t ih => intro p k y hk; exact ih _ k (pool_step_keep p c k hk)

theorem pool_exec_append (as bs : List Op) : ∀ p : Pool, (p.exec (as ++ bs)).2 = ((p.exec as).2.exec bs).2 := by
  induction as with
  | nil => intro p; rfl
  | cons c t ih => intro p; exact ih _

/-- **C63** A state keeps its value, except for the marks, through everything that is done afterwards. So it stays equal to itself, keeps its hash and its
legal actions. -/
theorem C63_constant (h : PHeap) (as bs : List Op) (k : ℕ) {v : GState} (hv : ((Memory.start h).exec as).2.value k = some v) :
    ∃ w, ((Memory.start h).exec (as ++ bs)).2.value k = some w ∧ w.unmarked = v.unmarked ∧ v.pyEq w = true ∧ (∀ H, w.hash H = v.hash H) ∧
      ∀ i, legalActions w i = legalActions v i := by
  rw [(C63_refines h as).2 k] at hv
  rw [(C63_refines h (as ++ bs)).2 k, pool_exec_append]
  unfold Pool.value at hv ⊢
  cases hk : (Pool.start.exec as).2.states[k]? with
  | none => rw [hk] at hv; cases hv
  | some y =>
    rw [hk] at hv
    obtain ⟨u, g⟩ := y
    cases hv
    rw [pool_exec_keep bs _ k hk]
    refine ⟨_, rfl, rfl, (C62_eq _ _).2 rfl, fun H => rfl, fun i => rfl⟩

/-- **C63** The marks do not influence what happens: successors of states with other marks are the same but for the marks (`erase` also drops the two unused
size numbers of the food grid). -/
theorem C63_marks_unused {s t : GState} (h : s.unmarked = t.unmarked) (i : ℕ) (a : Dir) :
    (generateSuccessor s i a).map GState.erase = (generateSuccessor t i a).map GState.erase := by
  have hc : s.core = t.core := by
    obtain ⟨f, c, ag, l, e, sc, fe, ce, am, lo, wi, ch⟩ := s
    obtain ⟨f', c', ag', l', e', sc', fe', ce', am', lo', wi', ch'⟩ := t
    simp only [GState.unmarked, GState.mk.injEq, true_and] at h
    obtain ⟨rfl, rfl, rfl, rfl, rfl, rfl, rfl, rfl, rfl, rfl, rfl⟩ := h
    rfl
  exact step_alike hc i a

/-! ### Marks are shared -/

/-- A corridor: Pacman, a capsule, a free cell, a ghost; food under Pacman's start and elsewhere. -/
def marksLayout : Layout :=
  ⟨6, 3, ⟨6, 3, [[true, true, true], [true, false, true], [true, false, true], [true, false, true], [true, false, true], [true, true, true]]⟩,
    ⟨6, 3, [[false, false, false], [false, true, false], [false, false, false], [false, false, false], [false, true, false], [false, false, false]]⟩,
    [(2, 1)], [(true, (1, 1)), (false, (4, 1))], 1, [], 2⟩

/-- Pacman eats the capsule; the ghost moves three half steps towards Pacman and is eaten. -/
def marksRun : List Op := [.init marksLayout 1, .succ 0 0 .east, .succ 1 1 .west, .succ 2 1 .west, .succ 3 1 .west]

/-- Empty memory. -/
def PHeap.empty : PHeap := ⟨0, fun _ => ⟨(0, 0), .stop⟩, fun _ => ⟨0, 0, false, 0⟩, fun _ => [], fun _ => [], fun _ => [],
  fun _ => ⟨⟨0, 0, 0⟩, 0, [], marksLayout, 0, 0, none, none, none, false, false, 0⟩⟩

/-- **C63** The exception: when a ghost is eaten in its own move, the mark also appears in the states before, back to the last move of Pacman, though the ghost was
not eaten in them. A move of Pacman starts afresh. -/
theorem C63_marks_shared :
    (List.range 5).map (fun k => (((Memory.start PHeap.empty).exec (marksRun.take 4)).2.value k).map GState.eaten) =
      [some [false, false], some [false, false], some [false, false], some [false, false], none] ∧
    (List.range 5).map (fun k => (((Memory.start PHeap.empty).exec marksRun).2.value k).map GState.eaten) =
      [some [false, false], some [false, true], some [false, true], some [false, true], some [false, true]] ∧
    (((Memory.start PHeap.empty).exec (marksRun ++ [.succ 1 0 .west])).2.value 5).map GState.eaten = some [false, false] := by
  refine ⟨by decide +kernel, by decide +kernel, by decide +kernel⟩

/-- **C63** In general: a state made by a move of a ghost has the marks of the state before for ever, and a state made by `deepCopy` those of the original. What is done
with one of them later changes the marks of the other. -/
theorem C63_marks_tied (h : PHeap) (as bs : List Op) (c : Op) (k : ℕ) (hc : c = .copy k ∨ ∃ i a, i ≠ 0 ∧ c = .succ k i a)
    (hok : (((Memory.start h).exec as).2.step c).1 = some (.ok ())) :
    ∃ v w, ((Memory.start h).exec (as ++ c :: bs)).2.value k = some v ∧
      ((Memory.start h).exec (as ++ c :: bs)).2.value ((Memory.start h).exec as).2.refs.length = some w ∧ w.eaten = v.eaten := by
  have h0 : Represents (Memory.start h) Pool.start [] := ⟨rfl, List.nodup_nil, by simp, rfl, by intro k v g hk; cases hk⟩
  obtain ⟨_, es, h2⟩ := exec_represents as h0
  rw [(step_represents h2 c).1] at hok
  rw [(C63_refines h _).2, (C63_refines h _).2, pool_exec_append, h2.length]
  show ∃ v w, ((((Pool.start.exec as).2.step c).2.exec bs).2.value k = some v) ∧ _ ∧ _
  generalize (Pool.start.exec as).2 = p at hok
  have key : ∃ u v g, (p.step c).2.states[k]? = some (u, g) ∧ (p.step c).2.states[p.states.length]? = some (v, g) := by
    have hnew : ∀ z, (p.states ++ [z])[p.states.length]? = some z := fun z => by
      rw [List.getElem?_append_right (le_refl _), Nat.sub_self]; rfl
    rcases hc with rfl | ⟨i, a, hi, rfl⟩
    · unfold Pool.step at hok
      cases hk : p.states[k]? with
      | none => simp only [hk] at hok; cases hok
      | some y =>
        obtain ⟨u, g⟩ := y
        cases hv : GState.deepCopy { u with eaten := p.marks.getD g [] } with
        | error e => simp only [hk, hv] at hok; cases hok
        | ok v =>
          refine ⟨u, v, g, pool_step_keep p _ k hk, ?_⟩
          unfold Pool.step
          simp only [hk, hv]
          exact hnew _
    · unfold Pool.step at hok
      cases hk : p.states[k]? with
      | none => simp only [hk] at hok; cases hok
      | some y =>
        obtain ⟨u, g⟩ := y
        cases hv : generateSuccessor { u with eaten := p.marks.getD g [] } i a with
        | error e => simp only [hk, hv] at hok; cases hok
        | ok v =>
          refine ⟨u, v, g, pool_step_keep p _ k hk, ?_⟩
          unfold Pool.step
          simp only [hk, hv, if_neg hi]
          exact hnew _
  obtain ⟨u, v, g, h3, h4⟩ := key
  refine ⟨{ u with eaten := ((p.step c).2.exec bs).2.marks.getD g [] }, { v with eaten := ((p.step c).2.exec bs).2.marks.getD g [] }, ?_, ?_, rfl⟩
  · unfold Pool.value
    rw [pool_exec_keep bs _ k h3]
  · show ((p.step c).2.exec bs).2.value p.states.length = _
    unfold Pool.value
    rw [pool_exec_keep bs _ _ h4]

/-- Such a ghost move. -/
example : (((Memory.start PHeap.empty).exec (marksRun.take 4)).2.step (.succ 3 1 .west)).1 = some (.ok ()) := by decide +kernel

end Verif.Pac
