import Verif.Model.PacHeap
import Verif.Lemmas.PacStep

/-!
# Lemmas about heaps of game states

`Own n h s`: the state `s` and everything that the rules write through it are objects made since the time when `n` was the next reference. `Frame n h h'`: objects older
than `n` are the same, except for `_eaten` lists, which are treated separately. `Step`: a part of a computation on `s` that keeps both.
-/

namespace Verif.Pac.PHeap

/-- Objects with references below `n` other than `_eaten` lists are unchanged. -/
structure Frame (n : Ref) (h h' : PHeap) : Prop where
  next : h.next ≤ h'.next
  conf : ∀ r < n, h'.conf r = h.conf r
  agent : ∀ r < n, h'.agent r = h.agent r
  cells : ∀ r < n, h'.cells r = h.cells r
  caps : ∀ r < n, h'.caps r = h.caps r
  state : ∀ r < n, h'.state r = h.state r

theorem Frame.refl (n : Ref) (h : PHeap) : Frame n h h := ⟨le_refl _, fun _ _ => rfl, fun _ _ => rfl, fun _ _ => rfl, fun _ _ => rfl, fun _ _ => rfl⟩

theorem Frame.trans {n : Ref} {h h' h'' : PHeap} (a : Frame n h h') (b : Frame n h' h'') : Frame n h h'' :=
  ⟨a.next.trans b.next, fun r hr => (b.conf r hr).trans (a.conf r hr), fun r hr => (b.agent r hr).trans (a.agent r hr),
    fun r hr => (b.cells r hr).trans (a.cells r hr), fun r hr => (b.caps r hr).trans (a.caps r hr), fun r hr => (b.state r hr).trans (a.state r hr)⟩

/-- Everything a state refers to exists, and it has one `_eaten` mark for each agent. -/
structure Live (h : PHeap) (s : Ref) : Prop where
  self : s < h.next
  caps : (h.state s).capsules < h.next
  agents : ∀ r ∈ (h.state s).agents, r < h.next
  confs : ∀ r ∈ (h.state s).agents, (h.agent r).conf < h.next ∧ (h.agent r).start < h.next
  food : (h.state s).food.data < h.next
  eaten : (h.state s).eaten < h.next
  marks : (h.eaten (h.state s).eaten).length = (h.state s).agents.length

/-- The state, its capsule list and its agent states are not older than `n`, and the agent states are different objects. -/
structure Own (n : Ref) (h : PHeap) (s : Ref) : Prop extends Live h s where
  le : n ≤ h.next
  mine : n ≤ s
  myCaps : n ≤ (h.state s).capsules
  myAgents : ∀ r ∈ (h.state s).agents, n ≤ r
  nodup : (h.state s).agents.Nodup

/-- What parts of a computation on the state `s` keep. -/
structure Step (n : Ref) (s : Ref) (h h' : PHeap) : Prop where
  own : Own n h' s
  frame : Frame n h h'
  ref : (h'.state s).eaten = (h.state s).eaten
  agents : (h'.state s).agents = (h.state s).agents
  eaten : h'.eaten = Function.update h.eaten (h.state s).eaten (h'.eaten (h.state s).eaten)

theorem Step.refl {n s : Ref} {h : PHeap} (ho : Own n h s) : Step n s h h := ⟨ho, Frame.refl n h, rfl, rfl, (Function.update_eq_self _ _).symm⟩

theorem Step.trans {n s : Ref} {h h' h'' : PHeap} (a : Step n s h h') (b : Step n s h' h'') : Step n s h h'' := by
  refine ⟨b.own, a.frame.trans b.frame, b.ref.trans a.ref, b.agents.trans a.agents, ?_⟩
  have h1 := b.eaten
  rw [a.ref] at h1
  conv_lhs => rw [h1, a.eaten]
  rw [Function.update_idem]

theorem Live.readAgents_newConf {h : PHeap} {s : Ref} (hl : Live h s) (c : Config) :
    (h.state s).agents.map (h.newConf c).readAgent = (h.state s).agents.map h.readAgent := by
  refine List.map_congr_left fun r hr => ?_
  obtain ⟨h1, h2⟩ := hl.confs r hr
  simp only [readAgent, newConf]
  rw [Function.update_of_ne (Nat.ne_of_lt h1), Function.update_of_ne (Nat.ne_of_lt h2)]

theorem Step.newConf {n s : Ref} {h : PHeap} (ho : Own n h s) (c : Config) : Step n s h (h.newConf c) := by
  have hlt : ∀ {r : Ref}, r < h.next → r < h.next + 1 := fun hr => Nat.lt_succ_of_lt hr
  refine ⟨⟨⟨hlt ho.self, hlt ho.caps, fun r hr => hlt (ho.agents r hr), fun r hr => ⟨hlt (ho.confs r hr).1, hlt (ho.confs r hr).2⟩, hlt ho.food, hlt ho.eaten, ho.marks⟩,
    Nat.le_succ_of_le ho.le, ho.mine, ho.myCaps, ho.myAgents, ho.nodup⟩, ⟨Nat.le_succ _, fun r hr => ?_, fun _ _ => rfl, fun _ _ => rfl, fun _ _ => rfl, fun _ _ => rfl⟩,
    rfl, rfl, (Function.update_eq_self _ _).symm⟩
  exact Function.update_of_ne (Nat.ne_of_lt (lt_of_lt_of_le hr ho.le)) _ _

theorem Step.newCells {n s : Ref} {h : PHeap} (ho : Own n h s) (c : List (List Bool)) : Step n s h (h.newCells c) := by
  have hlt : ∀ {r : Ref}, r < h.next → r < h.next + 1 := fun hr => Nat.lt_succ_of_lt hr
  refine ⟨⟨⟨hlt ho.self, hlt ho.caps, fun r hr => hlt (ho.agents r hr), fun r hr => ⟨hlt (ho.confs r hr).1, hlt (ho.confs r hr).2⟩, hlt ho.food, hlt ho.eaten, ho.marks⟩,
    Nat.le_succ_of_le ho.le, ho.mine, ho.myCaps, ho.myAgents, ho.nodup⟩, ⟨Nat.le_succ _, fun _ _ => rfl, fun _ _ => rfl, fun r hr => ?_, fun _ _ => rfl, fun _ _ => rfl⟩,
    rfl, rfl, (Function.update_eq_self _ _).symm⟩
  exact Function.update_of_ne (Nat.ne_of_lt (lt_of_lt_of_le hr ho.le)) _ _

/-- Writing fields of the state other than the references. -/
theorem Step.setState {n s : Ref} {h : PHeap} (ho : Own n h s) (f : StateObj → StateObj) (hc : (f (h.state s)).capsules = (h.state s).capsules)
    (ha : (f (h.state s)).agents = (h.state s).agents) (he : (f (h.state s)).eaten = (h.state s).eaten) (hf : (f (h.state s)).food.data < h.next) :
    Step n s h (h.setState s f) := by
  have e : (h.setState s f).state s = f (h.state s) := Function.update_self _ _ _
  refine ⟨⟨⟨ho.self, ?_, ?_, ?_, ?_, ?_, ?_⟩, ho.le, ho.mine, ?_, ?_, ?_⟩, ⟨le_refl _, fun _ _ => rfl, fun _ _ => rfl, fun _ _ => rfl, fun _ _ => rfl, fun r hr => ?_⟩,
    by rw [e, he], by rw [e, ha], (Function.update_eq_self _ _).symm⟩
  · rw [e, hc]; exact ho.caps
  · rw [e, ha]; exact ho.agents
  · rw [e, ha]; exact ho.confs
  · rw [e]; exact hf
  · rw [e, he]; exact ho.eaten
  · rw [e, he, ha]; exact ho.marks
  · rw [e, hc]; exact ho.myCaps
  · rw [e, ha]; exact ho.myAgents
  · rw [e, ha]; exact ho.nodup
  · exact Function.update_of_ne (Nat.ne_of_lt (lt_of_lt_of_le hr ho.mine)) _ _

theorem Step.setAgent {n s : Ref} {h : PHeap} (ho : Own n h s) {g : Ref} (hg : g ∈ (h.state s).agents) (f : AgentObj → AgentObj)
    (h1 : (f (h.agent g)).conf < h.next) (h2 : (f (h.agent g)).start < h.next) : Step n s h (h.setAgent g f) := by
  refine ⟨⟨⟨ho.self, ho.caps, ho.agents, fun r hr => ?_, ho.food, ho.eaten, ho.marks⟩, ho.le, ho.mine, ho.myCaps, ho.myAgents, ho.nodup⟩,
    ⟨le_refl _, fun _ _ => rfl, fun r hr => ?_, fun _ _ => rfl, fun _ _ => rfl, fun _ _ => rfl⟩, rfl, rfl, (Function.update_eq_self _ _).symm⟩
  · by_cases e : r = g
    · subst e
      have : (h.setAgent r f).agent r = f (h.agent r) := Function.update_self _ _ _
      rw [this]; exact ⟨h1, h2⟩
    · have : (h.setAgent g f).agent r = h.agent r := Function.update_of_ne e _ _
      rw [this]; exact ho.confs r hr
  · exact Function.update_of_ne (Nat.ne_of_lt (lt_of_lt_of_le hr (ho.myAgents g hg))) _ _

theorem Step.setConf {n s : Ref} {h : PHeap} (ho : Own n h s) {c : Ref} (hc : n ≤ c) (f : Config → Config) : Step n s h (h.setConf c f) := by
  refine ⟨⟨⟨ho.self, ho.caps, ho.agents, ho.confs, ho.food, ho.eaten, ho.marks⟩, ho.le, ho.mine, ho.myCaps, ho.myAgents, ho.nodup⟩,
    ⟨le_refl _, fun r hr => ?_, fun _ _ => rfl, fun _ _ => rfl, fun _ _ => rfl, fun _ _ => rfl⟩, rfl, rfl, (Function.update_eq_self _ _).symm⟩
  exact Function.update_of_ne (Nat.ne_of_lt (lt_of_lt_of_le hr hc)) _ _

theorem Step.setCells {n s : Ref} {h : PHeap} (ho : Own n h s) {c : Ref} (hc : n ≤ c) (d : List (List Bool)) : Step n s h (h.setCells c d) := by
  refine ⟨⟨⟨ho.self, ho.caps, ho.agents, ho.confs, ho.food, ho.eaten, ho.marks⟩, ho.le, ho.mine, ho.myCaps, ho.myAgents, ho.nodup⟩,
    ⟨le_refl _, fun _ _ => rfl, fun _ _ => rfl, fun r hr => ?_, fun _ _ => rfl, fun _ _ => rfl⟩, rfl, rfl, (Function.update_eq_self _ _).symm⟩
  exact Function.update_of_ne (Nat.ne_of_lt (lt_of_lt_of_le hr hc)) _ _

theorem Step.setCaps {n s : Ref} {h : PHeap} (ho : Own n h s) (d : List (ℤ × ℤ)) : Step n s h (h.setCaps (h.state s).capsules d) := by
  refine ⟨⟨⟨ho.self, ho.caps, ho.agents, ho.confs, ho.food, ho.eaten, ho.marks⟩, ho.le, ho.mine, ho.myCaps, ho.myAgents, ho.nodup⟩,
    ⟨le_refl _, fun _ _ => rfl, fun _ _ => rfl, fun _ _ => rfl, fun r hr => ?_, fun _ _ => rfl⟩, rfl, rfl, (Function.update_eq_self _ _).symm⟩
  exact Function.update_of_ne (Nat.ne_of_lt (lt_of_lt_of_le hr ho.myCaps)) _ _

theorem Step.setEaten {n s : Ref} {h : PHeap} (ho : Own n h s) (l : List Bool) (hl : l.length = (h.state s).agents.length) :
    Step n s h (h.setEaten (h.state s).eaten l) := by
  have e : (h.setEaten (h.state s).eaten l).eaten (h.state s).eaten = l := Function.update_self _ _ _
  refine ⟨⟨⟨ho.self, ho.caps, ho.agents, ho.confs, ho.food, ho.eaten, ?_⟩, ho.le, ho.mine, ho.myCaps, ho.myAgents, ho.nodup⟩,
    ⟨le_refl _, fun _ _ => rfl, fun _ _ => rfl, fun _ _ => rfl, fun _ _ => rfl, fun _ _ => rfl⟩, rfl, rfl, by rw [e]; rfl⟩
  show ((h.setEaten (h.state s).eaten l).eaten (h.state s).eaten).length = _
  rw [e, hl]; rfl

/-! ### What is read after a write -/

theorem map_set_one {A B : Type} {l : List A} (hn : l.Nodup) {i : ℕ} {r : A} (hr : l[i]? = some r) {g g' : A → B} (hg : ∀ a ∈ l, a ≠ r → g a = g' a) :
    l.map g = (l.map g').set i (g r) := by
  induction l generalizing i with
  | nil => cases hr
  | cons a t ih =>
    obtain ⟨ha, ht⟩ := List.nodup_cons.1 hn
    cases i with
    | zero =>
      cases hr
      rw [List.map_cons, List.map_cons, List.set_cons_zero]
      congr 1
      refine List.map_congr_left fun b hb => hg b (List.mem_cons_of_mem _ hb) ?_
      rintro rfl; exact ha hb
    | succ i =>
      rw [List.getElem?_cons_succ] at hr
      rw [List.map_cons, List.map_cons, List.set_cons_succ, ih ht hr fun b hb => hg b (List.mem_cons_of_mem _ hb)]
      congr 1
      refine hg a List.mem_cons_self ?_
      rintro rfl; exact ha (List.mem_of_getElem? hr)

theorem readAgent_setAgent_self (h : PHeap) (g : Ref) (f : AgentObj → AgentObj) :
    (h.setAgent g f).readAgent g = ⟨h.conf (f (h.agent g)).start, h.conf (f (h.agent g)).conf, (f (h.agent g)).isPacman, (f (h.agent g)).scared⟩ := by
  simp [readAgent, PHeap.setAgent]

theorem readAgent_setAgent_ne (h : PHeap) (g : Ref) (f : AgentObj → AgentObj) {r : Ref} (hr : r ≠ g) : (h.setAgent g f).readAgent r = h.readAgent r := by
  simp [readAgent, PHeap.setAgent, Function.update_of_ne hr]

theorem read_setAgent {n s : Ref} {h : PHeap} (ho : Own n h s) {i : ℕ} {g : Ref} (hg : (h.state s).agents[i]? = some g) (f : AgentObj → AgentObj) :
    (h.setAgent g f).read s = { h.read s with
      agents := (h.read s).agents.set i ⟨h.conf (f (h.agent g)).start, h.conf (f (h.agent g)).conf, (f (h.agent g)).isPacman, (f (h.agent g)).scared⟩ } := by
  have := map_set_one ho.nodup hg (g := (h.setAgent g f).readAgent) (g' := h.readAgent) fun r _ hr => readAgent_setAgent_ne h g f hr
  rw [readAgent_setAgent_self] at this
  simp only [read]
  rw [← this]
  rfl

theorem read_agents_get (h : PHeap) (s : Ref) (i : ℕ) : (h.read s).agents[i]? = ((h.state s).agents[i]?).map h.readAgent := by
  simp [read]

theorem read_newConf {h : PHeap} {s : Ref} (hl : Live h s) (c : Config) : (h.newConf c).read s = h.read s := by
  have := hl.readAgents_newConf c
  simp only [read]
  rw [← this]
  rfl

/-! ### The rules on heaps follow the rules on values -/

/-- The computation on objects does what the computation on values does to the value of the state `s`; errors leave no trace in older objects. -/
def Sim (n s : Ref) (h : PHeap) (x : Except PErr GState) (y : Except PErr Unit × PHeap) : Prop :=
  match x with
  | .error e => y.1 = .error e ∧ Frame n h y.2 ∧ y.2.eaten = h.eaten
  | .ok v => y.1 = .ok () ∧ Step n s h y.2 ∧ y.2.read s = v

theorem Sim.ok {n s : Ref} {h h' : PHeap} {v : GState} (hs : Step n s h h') (hv : h'.read s = v) : Sim n s h (.ok v) (.ok (), h') := ⟨rfl, hs, hv⟩

theorem Sim.after {n s : Ref} {h h' : PHeap} (hs : Step n s h h') (he : h'.eaten = h.eaten) {x : Except PErr GState} {y : Except PErr Unit × PHeap}
    (h2 : Sim n s h' x y) : Sim n s h x y := by
  cases x with
  | error e => exact ⟨h2.1, hs.frame.trans h2.2.1, h2.2.2.trans he⟩
  | ok v => exact ⟨h2.1, hs.trans h2.2.1, h2.2.2⟩

theorem consumeFood_sim {n s : Ref} {h : PHeap} (ho : Own n h s) (p : ℤ × ℤ) : Sim n s h (Pac.consumeFood (h.read s) p) (h.consumeFood s p) ∧
    (h.consumeFood s p).2.eaten = h.eaten := by
  unfold Pac.consumeFood PHeap.consumeFood
  cases hg : (h.read s).food.get p.1 p.2 with
  | error e => exact ⟨⟨rfl, Frame.refl _ _, rfl⟩, rfl⟩
  | ok b =>
    cases b with
    | false => exact ⟨Sim.ok (Step.refl ho) rfl, rfl⟩
    | true =>
      simp only
      set h1 := h.setState s fun o => { o with scoreChange := o.scoreChange + 10 } with e1
      have s1 : Step n s h h1 := Step.setState ho _ rfl rfl rfl ho.food
      have o1 := s1.own
      set h2 := h1.newCells (h1.cells (h1.state s).food.data) with e2
      have s2 : Step n s h1 h2 := Step.newCells o1 _
      have o2 := s2.own
      set h3 := h2.setState s fun o => { o with food := ⟨o.food.width, o.food.height, h1.next⟩ } with e3
      have s3 : Step n s h2 h3 := Step.setState o2 _ rfl rfl rfl (Nat.lt_succ_self _)
      have o3 := s3.own
      have s123 := (s1.trans s2).trans s3
      have r3 : h3.read s = { h.read s with scoreChange := (h.read s).scoreChange + 10 } := by
        simp [e3, e2, e1, read, PHeap.setState, PHeap.newCells]
        first | rfl | exact fun _ _ => rfl
      have hfood : (h3.read s).food = (h.read s).food := by rw [r3]
      rw [hfood]
      cases hp : (h.read s).food.put p.1 p.2 false with
      | error e => exact ⟨⟨rfl, s123.frame, rfl⟩, rfl⟩
      | ok g =>
        simp only
        have hd : (h3.state s).food.data = h1.next := by simp [e3, PHeap.setState]
        set h4 := h3.setCells (h3.state s).food.data g.data with e4
        have s4 : Step n s h3 h4 := Step.setCells o3 (by rw [hd]; exact o1.le) _
        set h5 := h4.setState s fun o => { o with foodEaten := some p } with e5
        have s5 : Step n s h4 h5 := Step.setState s4.own _ rfl rfl rfl s4.own.food
        have hgw : g.width = (h.read s).food.width ∧ g.height = (h.read s).food.height := by
          unfold Grid.put at hp
          split at hp
          · cases hp
          · split at hp
            · cases hp
            · split at hp
              · cases hp
              · cases hp; exact ⟨rfl, rfl⟩
        have r5 : h5.read s = { h.read s with food := g, foodEaten := some p, scoreChange := (h.read s).scoreChange + 10 } := by
          have : h5.read s = { h3.read s with food := ⟨(h3.read s).food.width, (h3.read s).food.height, g.data⟩, foodEaten := some p } := by
            simp [e5, e4, read, PHeap.setState, PHeap.setCells]
            first | rfl | exact fun _ _ => rfl
          rw [this, r3, ← hgw.1, ← hgw.2]
        have s15 := (s123.trans s4).trans s5
        have hcount : (h5.read s).food.count true = g.count true := by rw [r5]
        have hlose : (h5.state s).lose = (h.read s).lose := by
          have := congrArg GState.lose r5
          exact this
        rw [hcount, hlose]
        by_cases hz : g.count true = 0 ∧ (h.read s).lose = false
        · rw [if_pos hz, if_pos hz]
          refine ⟨Sim.ok (s15.trans (Step.setState s5.own _ rfl rfl rfl s5.own.food)) ?_, rfl⟩
          have : (h5.setState s fun o => { o with scoreChange := o.scoreChange + 500, win := true }).read s =
              { h5.read s with scoreChange := (h5.read s).scoreChange + 500, win := true } := by
            simp [read, PHeap.setState]
            first | rfl | exact fun _ _ => rfl
          rw [this, r5]
        · rw [if_neg hz, if_neg hz]
          exact ⟨Sim.ok s15 r5, rfl⟩

theorem scare_step {n s : Ref} : ∀ (l : List Ref) {h : PHeap}, Own n h s → (∀ r ∈ l, r ∈ (h.state s).agents) → Step n s h (h.scare l)
  | [], h, ho, _ => Step.refl ho
  | r :: t, h, ho, hl => by
    have hr := hl r List.mem_cons_self
    have s1 : Step n s h (h.setAgent r fun a => { a with scared := scaredTime }) := Step.setAgent ho hr _ (ho.confs r hr).1 (ho.confs r hr).2
    refine s1.trans (scare_step t s1.own fun x hx => ?_)
    rw [s1.agents]; exact hl x (List.mem_cons_of_mem _ hx)

theorem scare_state (s : Ref) : ∀ (l : List Ref) (h : PHeap), (h.scare l).state = h.state ∧ (h.scare l).conf = h.conf ∧ (h.scare l).cells = h.cells ∧
    (h.scare l).caps = h.caps ∧ (h.scare l).eaten = h.eaten
  | [], h => ⟨rfl, rfl, rfl, rfl, rfl⟩
  | r :: t, h => by
    obtain ⟨a, b, c, d, e⟩ := scare_state s t (h.setAgent r fun a => { a with scared := scaredTime })
    exact ⟨a, b, c, d, e⟩

theorem scare_agent : ∀ (l : List Ref) (h : PHeap) (r : Ref), l.Nodup → (h.scare l).agent r = if r ∈ l then { h.agent r with scared := scaredTime } else h.agent r
  | [], h, r, _ => by simp [scare]
  | x :: t, h, r, hn => by
    obtain ⟨hx, ht⟩ := List.nodup_cons.1 hn
    rw [scare, scare_agent t _ r ht]
    by_cases e : r = x
    · subst e
      simp [hx, PHeap.setAgent]
    · simp [e, PHeap.setAgent]

theorem consumeCapsule_sim {n s : Ref} {h : PHeap} (ho : Own n h s) (p : ℤ × ℤ) : Step n s h (h.consumeCapsule s p) ∧
    (h.consumeCapsule s p).read s = Pac.consumeCapsule (h.read s) p ∧ (h.consumeCapsule s p).eaten = h.eaten := by
  unfold PHeap.consumeCapsule Pac.consumeCapsule
  have hc : (h.read s).capsules = h.caps (h.state s).capsules := rfl
  rw [hc]
  by_cases hp : p ∈ h.caps (h.state s).capsules
  · rw [if_pos hp, if_pos hp]
    set h1 := h.setCaps (h.state s).capsules ((h.caps (h.state s).capsules).erase p) with e1
    have s1 : Step n s h h1 := Step.setCaps ho _
    set h2 := h1.setState s fun o => { o with capsuleEaten := some p } with e2
    have s2 : Step n s h1 h2 := Step.setState s1.own _ rfl rfl rfl s1.own.food
    have o2 := s2.own
    have r2 : h2.read s = { h.read s with capsules := (h.caps (h.state s).capsules).erase p, capsuleEaten := some p } := by
      simp [e2, e1, read, PHeap.setState, PHeap.setCaps]
      first | rfl | exact fun _ _ => rfl
    have s3 : Step n s h2 (h2.scare (h2.state s).agents.tail) := scare_step _ o2 fun r hr => List.mem_of_mem_tail hr
    obtain ⟨f1, f2, f3, f4, f5⟩ := scare_state s (h2.state s).agents.tail h2
    refine ⟨(s1.trans s2).trans s3, ?_, ?_⟩
    · have hag : (h2.state s).agents.map (h2.scare (h2.state s).agents.tail).readAgent = scareAll ((h2.state s).agents.map h2.readAgent) := by
        have hn := o2.nodup
        cases hl : (h2.state s).agents with
        | nil => rfl
        | cons x t =>
          rw [hl] at hn
          obtain ⟨hx, ht⟩ := List.nodup_cons.1 hn
          rw [hl] at f2
          rw [List.map_cons, List.map_cons, scareAll, List.map_map, List.tail_cons]
          congr 1
          · simp only [readAgent]
            rw [scare_agent t h2 x ht, if_neg hx]
            rw [List.tail_cons] at f2
            rw [f2]
          · refine List.map_congr_left fun r hr => ?_
            simp only [readAgent, Function.comp_apply]
            rw [scare_agent t h2 r ht, if_pos hr]
            rw [List.tail_cons] at f2
            rw [f2]
      have : (h2.scare (h2.state s).agents.tail).read s = { h2.read s with agents := scareAll (h2.read s).agents } := by
        simp only [read, f1, f3, f4, f5, hag]
      rw [this, r2]
    · rw [f5]; rfl
  · rw [if_neg hp, if_neg hp]
    exact ⟨Step.refl ho, rfl, rfl⟩

theorem consume_sim {n s : Ref} {h : PHeap} (ho : Own n h s) (p : ℤ × ℤ) : Sim n s h (Pac.consume (h.read s) p) (h.consume s p) ∧ (h.consume s p).2.eaten = h.eaten := by
  obtain ⟨h1, he⟩ := consumeFood_sim ho p
  unfold Pac.consume PHeap.consume
  revert h1 he
  generalize h.consumeFood s p = y
  obtain ⟨y1, y2⟩ := y
  cases Pac.consumeFood (h.read s) p with
  | error e =>
    rintro ⟨a, b, c⟩ he
    simp only at a b c
    subst a
    exact ⟨⟨rfl, b, c⟩, c⟩
  | ok v =>
    rintro ⟨a, b, c⟩ he
    simp only at a b c he
    subst a
    simp only
    obtain ⟨s2, r2, e2⟩ := consumeCapsule_sim b.own p
    refine ⟨Sim.ok (b.trans s2) (by rw [r2, c]), e2.trans he⟩

theorem pacApply_sim {n s : Ref} {h : PHeap} (ho : Own n h s) (a : Dir) : Sim n s h (Pac.pacApply (h.read s) a) (h.pacApply s a) ∧ (h.pacApply s a).2.eaten = h.eaten := by
  unfold Pac.pacApply PHeap.pacApply
  cases hl : pacLegal (h.read s) with
  | error e => exact ⟨⟨rfl, Frame.refl _ _, rfl⟩, rfl⟩
  | ok legal =>
    simp only
    by_cases hm : a ∉ legal
    · rw [if_pos hm, if_pos hm]; exact ⟨⟨rfl, Frame.refl _ _, rfl⟩, rfl⟩
    · rw [if_neg hm, if_neg hm]
      cases hag : (h.state s).agents with
      | nil =>
        have : (h.read s).agents = [] := by simp [read, hag]
        rw [this]
        exact ⟨⟨rfl, Frame.refl _ _, rfl⟩, rfl⟩
      | cons p t =>
        have hra : (h.read s).agents = h.readAgent p :: t.map h.readAgent := by simp [read, hag]
        rw [hra]
        simp only
        set c := (h.conf (h.agent p).conf).succ (directionToVector a 1) with ec
        have hc : (h.readAgent p).conf.succ (directionToVector a 1) = c := rfl
        rw [hc]
        set h1 := h.newConf c with e1
        have s1 : Step n s h h1 := Step.newConf ho c
        have hp : (h1.state s).agents[0]? = some p := by rw [s1.agents, hag]; rfl
        set h2 := h1.setAgent p fun o => { o with conf := h.next } with e2
        have s2 : Step n s h1 h2 := Step.setAgent s1.own (List.mem_of_getElem? hp) _ (Nat.lt_succ_self _) (s1.own.confs p (List.mem_of_getElem? hp)).2
        have r1 : h1.read s = h.read s := read_newConf ho.toLive c
        have hst : (h.agent p).start < h.next := (ho.confs p (by rw [hag]; exact List.mem_cons_self)).2
        have r2 : h2.read s = { h.read s with agents := { h.readAgent p with conf := c } :: t.map h.readAgent } := by
          rw [e2, read_setAgent s1.own hp, r1, hra, List.set_cons_zero]
          congr 2
          simp only [e1, PHeap.newConf, readAgent, Function.update_self]
          rw [Function.update_of_ne (Nat.ne_of_lt hst)]
        have hnext : (h2.conf (h2.agent p).conf).pos = c.pos := by simp [e2, e1, PHeap.setAgent, PHeap.newConf]
        rw [hnext]
        by_cases hd : manhattan (toPos (nearestPoint c.pos)) c.pos ≤ 1 / 2
        · rw [if_pos hd, if_pos hd, ← r2]
          obtain ⟨x, y⟩ := consume_sim s2.own (nearestPoint c.pos)
          exact ⟨Sim.after (s1.trans s2) rfl x, y⟩
        · rw [if_neg hd, if_neg hd]
          exact ⟨Sim.ok (s1.trans s2) r2, rfl⟩

/-- The configuration of agent `g` is an object not older than `n` which no other part of the state refers to. -/
structure Private (n s g : Ref) (h : PHeap) : Prop where
  new : n ≤ (h.agent g).conf
  starts : ∀ r ∈ (h.state s).agents, (h.agent r).start ≠ (h.agent g).conf
  confs : ∀ r ∈ (h.state s).agents, r ≠ g → (h.agent r).conf ≠ (h.agent g).conf

theorem ghostApply_sim {n s : Ref} {h : PHeap} (ho : Own n h s) (a : Dir) (i : ℕ) : Sim n s h (Pac.ghostApply (h.read s) a i) (h.ghostApply s a i) ∧
    (h.ghostApply s a i).2.eaten = h.eaten ∧
    ((h.ghostApply s a i).1 = .ok () → ∃ g, ((h.ghostApply s a i).2.state s).agents[i]? = some g ∧ Private n s g (h.ghostApply s a i).2) := by
  unfold Pac.ghostApply PHeap.ghostApply
  cases hl : ghostLegal (h.read s) i with
  | error e => exact ⟨⟨rfl, Frame.refl _ _, rfl⟩, rfl, by rintro ⟨⟩⟩
  | ok legal =>
    simp only
    by_cases hm : a ∉ legal
    · rw [if_pos hm, if_pos hm]; exact ⟨⟨rfl, Frame.refl _ _, rfl⟩, rfl, by rintro ⟨⟩⟩
    · rw [if_neg hm, if_neg hm, read_agents_get]
      cases hag : (h.state s).agents[i]? with
      | none => exact ⟨⟨rfl, Frame.refl _ _, rfl⟩, rfl, by rintro ⟨⟩⟩
      | some g =>
        simp only [Option.map_some]
        set c := (h.conf (h.agent g).conf).succ (directionToVector a (if (h.agent g).scared > 0 then 1 / 2 else 1)) with ec
        have hc : (h.readAgent g).conf.succ (directionToVector a (if (h.readAgent g).scared > 0 then 1 / 2 else 1)) = c := rfl
        rw [hc]
        set h1 := h.newConf c with e1
        have s1 : Step n s h h1 := Step.newConf ho c
        have hp : (h1.state s).agents[i]? = some g := by rw [s1.agents, hag]
        have hmem := List.mem_of_getElem? hag
        set h2 := h1.setAgent g fun o => { o with conf := h.next } with e2
        have s2 : Step n s h1 h2 := Step.setAgent s1.own (List.mem_of_getElem? hp) _ (Nat.lt_succ_self _) (s1.own.confs g (List.mem_of_getElem? hp)).2
        have r1 : h1.read s = h.read s := read_newConf ho.toLive c
        have hst : (h.agent g).start < h.next := (ho.confs g hmem).2
        have r2 : h2.read s = { h.read s with agents := (h.read s).agents.set i { h.readAgent g with conf := c } } := by
          rw [e2, read_setAgent s1.own hp, r1]
          congr 2
          simp only [e1, PHeap.newConf, readAgent, Function.update_self]
          rw [Function.update_of_ne (Nat.ne_of_lt hst)]
        refine ⟨Sim.ok (s1.trans s2) r2, rfl, fun _ => ⟨g, by rw [s2.agents, hp], ?_⟩⟩
        have hgc : (h2.agent g).conf = h.next := by simp [e2, PHeap.setAgent]
        refine ⟨by rw [hgc]; exact ho.le, fun r hr => ?_, fun r hr hne => ?_⟩
        · rw [hgc]
          have hr' : r ∈ (h.state s).agents := hr
          by_cases e : r = g
          · subst e
            have : (h2.agent r).start = (h.agent r).start := by simp [e2, e1, PHeap.setAgent, PHeap.newConf]
            rw [this]; exact Nat.ne_of_lt (ho.confs r hr').2
          · have : h2.agent r = h.agent r := Function.update_of_ne e _ _
            rw [this]; exact Nat.ne_of_lt (ho.confs r hr').2
        · rw [hgc]
          have : h2.agent r = h.agent r := Function.update_of_ne hne _ _
          rw [this]; exact Nat.ne_of_lt (ho.confs r hr).1

theorem modify_eq_set {A : Type} (f : A → A) : ∀ (l : List A) (i : ℕ) (a : A), l[i]? = some a → l.modify i f = l.set i (f a)
  | [], _, _, h => by cases h
  | b :: t, 0, a, h => by cases h; rfl
  | b :: t, i + 1, a, h => by
    rw [List.getElem?_cons_succ] at h
    rw [List.modify_succ_cons, List.set_cons_succ, modify_eq_set f t i a h]

theorem decrement_sim {n s : Ref} {h : PHeap} (ho : Own n h s) {i : ℕ} {g : Ref} (hg : (h.state s).agents[i]? = some g) (hp : Private n s g h) :
    Step n s h (h.decrement g) ∧ (h.decrement g).read s = { h.read s with agents := (h.read s).agents.modify i Pac.decrement } ∧ (h.decrement g).eaten = h.eaten := by
  have hmem := List.mem_of_getElem? hg
  have hget : (h.read s).agents[i]? = some (h.readAgent g) := by rw [read_agents_get, hg]; rfl
  rw [modify_eq_set _ _ _ _ hget]
  unfold PHeap.decrement
  by_cases ht : (h.agent g).scared = 1
  · simp only [ht, if_true]
    set h1 := h.setConf (h.agent g).conf fun c => { c with pos := toPos (nearestPoint c.pos) } with e1
    have s1 : Step n s h h1 := Step.setConf ho hp.new _
    have s2 := Step.setAgent (h := h1) s1.own (g := g) (by rw [s1.agents]; exact hmem) (fun o => { o with scared := 1 - 1 })
      (s1.own.confs g (by rw [s1.agents]; exact hmem)).1 (s1.own.confs g (by rw [s1.agents]; exact hmem)).2
    refine ⟨s1.trans s2, ?_, rfl⟩
    have hg1 : (h1.state s).agents[i]? = some g := hg
    rw [read_setAgent s1.own hg1]
    have hother : ∀ r ∈ (h.state s).agents, r ≠ g → h1.readAgent r = h.readAgent r := by
      intro r hr hne
      simp only [readAgent, e1, PHeap.setConf]
      rw [Function.update_of_ne (hp.starts r hr), Function.update_of_ne (hp.confs r hr hne)]
    have hmap := map_set_one ho.nodup hg (g := h1.readAgent) (g' := h.readAgent) hother
    have hag : (h1.read s).agents = (h.read s).agents.set i (h1.readAgent g) := hmap
    have hrest : h1.read s = { h.read s with agents := (h1.read s).agents } := rfl
    rw [hrest, hag]
    simp only [List.set_set]
    congr 2
    simp only [readAgent, Pac.decrement, e1, PHeap.setConf, Function.update_self, ht, if_true]
    rw [Function.update_of_ne (hp.starts g hmem)]
  · simp only [ht, if_false]
    have s2 := Step.setAgent ho hmem (fun o => { o with scared := (h.agent g).scared - 1 }) (ho.confs g hmem).1 (ho.confs g hmem).2
    refine ⟨s2, ?_, rfl⟩
    rw [read_setAgent ho hg]
    congr 2
    simp only [readAgent, Pac.decrement, ht, if_false]

theorem collide_sim {n s : Ref} {h : PHeap} (ho : Own n h s) {i : ℕ} {g : Ref} (hg : (h.state s).agents[i]? = some g) :
    Sim n s h (.ok (Pac.collide (h.read s) i)) (h.collide s g i) := by
  have hmem := List.mem_of_getElem? hg
  have hget : (h.read s).agents[i]? = some (h.readAgent g) := by rw [read_agents_get, hg]; rfl
  unfold PHeap.collide Pac.collide
  rw [hget]
  simp only
  have hsc : (h.readAgent g).scared = (h.agent g).scared := rfl
  rw [hsc]
  by_cases ht : (h.agent g).scared > 0
  · rw [if_pos ht, if_pos ht]
    set h1 := h.setState s fun o => { o with scoreChange := o.scoreChange + 200 } with e1
    have s1 : Step n s h h1 := Step.setState ho _ rfl rfl rfl ho.food
    have hg1 : (h1.state s).agents[i]? = some g := by rw [s1.agents]; exact hg
    have hm1 := List.mem_of_getElem? hg1
    set h2 := h1.setAgent g fun o => { o with conf := o.start } with e2
    have s2 : Step n s h1 h2 := Step.setAgent s1.own hm1 _ (s1.own.confs g hm1).2 (s1.own.confs g hm1).2
    have hg2 : (h2.state s).agents[i]? = some g := by rw [s2.agents]; exact hg1
    have hm2 := List.mem_of_getElem? hg2
    set h3 := h2.setAgent g fun o => { o with scared := 0 } with e3
    have s3 : Step n s h2 h3 := Step.setAgent s2.own hm2 _ (s2.own.confs g hm2).1 (s2.own.confs g hm2).2
    have s13 := (s1.trans s2).trans s3
    have hlen : i < (h3.eaten (h3.state s).eaten).length := by
      rw [s13.own.marks, s13.agents]
      exact (List.getElem?_eq_some_iff.1 hg).1
    unfold listSet
    rw [if_pos hlen]
    simp only
    have s4 := Step.setEaten s13.own ((h3.eaten (h3.state s).eaten).set i true) (by rw [List.length_set]; exact s13.own.marks)
    refine Sim.ok (s13.trans s4) ?_
    have r4 : (h3.setEaten (h3.state s).eaten ((h3.eaten (h3.state s).eaten).set i true)).read s = { h3.read s with eaten := (h3.read s).eaten.set i true } := by
      simp [read, PHeap.setEaten]
      first | rfl | exact fun _ _ => rfl
    have r1 : h1.read s = { h.read s with scoreChange := (h.read s).scoreChange + 200 } := by
      simp [e1, read, PHeap.setState]
      first | rfl | exact fun _ _ => rfl
    rw [r4, e3, read_setAgent s2.own hg2, e2, read_setAgent s1.own hg1, r1]
    simp only [List.set_set]
    congr 2
    simp [readAgent, PHeap.setAgent, e1, PHeap.setState]
  · rw [if_neg ht, if_neg ht]
    have hw : (h.read s).win = (h.state s).win := rfl
    rw [hw]
    by_cases hwin : (h.state s).win = false
    · rw [if_pos hwin, if_pos hwin]
      refine Sim.ok (Step.setState ho _ rfl rfl rfl ho.food) ?_
      simp [read, PHeap.setState]
      first | rfl | exact fun _ _ => rfl
    · rw [if_neg hwin, if_neg hwin]
      exact Sim.ok (Step.refl ho) rfl

theorem deathAt_sim {n s : Ref} {h : PHeap} (ho : Own n h s) (pac : Pos) {i : ℕ} {g : Ref} (hg : (h.state s).agents[i]? = some g) :
    Sim n s h (.ok (Pac.deathAt pac (h.read s) i)) (deathAt pac h s g i) := by
  have hget : (h.read s).agents[i]? = some (h.readAgent g) := by rw [read_agents_get, hg]; rfl
  unfold PHeap.deathAt Pac.deathAt
  rw [hget]
  simp only
  have hc : (h.readAgent g).conf.pos = (h.conf (h.agent g).conf).pos := rfl
  rw [hc]
  split
  · exact collide_sim ho hg
  · exact Sim.ok (Step.refl ho) rfl

theorem deaths_sim {n s : Ref} (pac : Pos) : ∀ (t : List Ref) (i : ℕ) {h : PHeap}, Own n h s → (h.state s).agents.drop i = t →
    Sim n s h (.ok ((List.range' i t.length).foldl (Pac.deathAt pac) (h.read s))) (deaths pac h s i t)
  | [], i, h, ho, _ => Sim.ok (Step.refl ho) rfl
  | g :: t, i, h, ho, hd => by
    have hg : (h.state s).agents[i]? = some g := by
      have := congrArg List.head? hd
      rwa [List.head?_drop] at this
    obtain ⟨a, b, c⟩ := deathAt_sim ho pac hg
    rw [deaths]
    generalize hy : deathAt pac h s g i = y at a b c
    obtain ⟨y1, y2⟩ := y
    simp only at a b c
    subst a
    simp only
    have hd2 : (y2.state s).agents.drop (i + 1) = t := by
      rw [b.agents]
      have := congrArg List.tail hd
      rwa [List.tail_drop] at this
    obtain ⟨a', b', c'⟩ := deaths_sim pac t (i + 1) b.own hd2
    rw [List.length_cons, List.range'_succ, List.foldl_cons, ← c]
    exact ⟨a', b.trans b', c'⟩

theorem checkDeath_sim {n s : Ref} {h : PHeap} (ho : Own n h s) (i : ℕ) : Sim n s h (Pac.checkDeath (h.read s) i) (h.checkDeath s i) := by
  unfold PHeap.checkDeath Pac.checkDeath
  rw [read_agents_get, read_agents_get]
  cases hag : (h.state s).agents with
  | nil => exact ⟨rfl, Frame.refl _ _, rfl⟩
  | cons p rest =>
    simp only [List.getElem?_cons_zero, Option.map_some]
    have hc : (h.readAgent p).conf.pos = (h.conf (h.agent p).conf).pos := rfl
    rw [hc]
    by_cases hi : i = 0
    · rw [if_pos hi, if_pos hi]
      have hl : (h.read s).agents.length - 1 = rest.length := by simp [read, hag]
      rw [hl]
      exact deaths_sim _ rest 1 ho (by rw [hag]; rfl)
    · rw [if_neg hi, if_neg hi, ← hag]
      cases hg : (h.state s).agents[i]? with
      | none => exact ⟨rfl, Frame.refl _ _, rfl⟩
      | some g => exact deathAt_sim ho _ hg

/-! ### Copying -/

theorem copyAgents_spec : ∀ (l : List Ref) (h : PHeap), (∀ r ∈ l, r < h.next ∧ (h.agent r).conf < h.next ∧ (h.agent r).start < h.next) →
    (h.copyAgents l).1.next = h.next + l.length ∧ (h.copyAgents l).2 = List.range' h.next l.length ∧
    (h.copyAgents l).1.conf = h.conf ∧ (h.copyAgents l).1.cells = h.cells ∧ (h.copyAgents l).1.caps = h.caps ∧ (h.copyAgents l).1.eaten = h.eaten ∧
    (h.copyAgents l).1.state = h.state ∧ (∀ r < h.next, (h.copyAgents l).1.agent r = h.agent r) ∧
    (h.copyAgents l).2.map (h.copyAgents l).1.agent = l.map h.agent
  | [], h, _ => ⟨rfl, rfl, rfl, rfl, rfl, rfl, rfl, fun _ _ => rfl, rfl⟩
  | x :: t, h, hl => by
    set h1 := h.newAgent ⟨(h.agent x).start, (h.agent x).conf, (h.agent x).isPacman, (h.agent x).scared⟩ with e1
    have hold : ∀ r < h.next, h1.agent r = h.agent r := fun r hr => Function.update_of_ne (Nat.ne_of_lt hr) _ _
    have hn1 : h1.next = h.next + 1 := rfl
    have hc : ∀ r ∈ t, r < h1.next ∧ (h1.agent r).conf < h1.next ∧ (h1.agent r).start < h1.next := by
      intro r hr
      obtain ⟨a, b, c⟩ := hl r (List.mem_cons_of_mem _ hr)
      rw [hold r a]
      exact ⟨Nat.lt_succ_of_lt a, Nat.lt_succ_of_lt b, Nat.lt_succ_of_lt c⟩
    obtain ⟨a1, a2, a3, a4, a5, a6, a7, a8, a9⟩ := copyAgents_spec t h1 hc
    have hdef : h.copyAgents (x :: t) = ((h1.copyAgents t).1, h.next :: (h1.copyAgents t).2) := rfl
    rw [hdef]
    refine ⟨?_, ?_, a3, a4, a5, a6, a7, fun r hr => ?_, ?_⟩
    · show (h1.copyAgents t).1.next = _
      rw [a1, hn1, List.length_cons]; omega
    · show h.next :: (h1.copyAgents t).2 = _
      rw [a2, hn1, List.length_cons, List.range'_succ]
    · show (h1.copyAgents t).1.agent r = _
      rw [a8 r (Nat.lt_succ_of_lt hr), hold r hr]
    · show (h.next :: (h1.copyAgents t).2).map (h1.copyAgents t).1.agent = _
      rw [List.map_cons, List.map_cons, a9, a8 h.next (Nat.lt_succ_self _)]
      congr 1
      · show Function.update h.agent h.next _ h.next = _
        rw [Function.update_self]
      · exact List.map_congr_left fun r hr => hold r (hl r (List.mem_cons_of_mem _ hr)).1

theorem copyState_spec {h : PHeap} {s : Ref} (hl : Live h s) :
    Own h.next (h.copyState s).1 (h.copyState s).2 ∧ Frame h.next h (h.copyState s).1 ∧ (h.copyState s).1.read (h.copyState s).2 = (h.read s).next ∧
    (h.copyState s).1.eaten = h.eaten ∧ ((h.copyState s).1.state (h.copyState s).2).eaten = (h.state s).eaten ∧
    ((h.copyState s).1.state (h.copyState s).2).layout = (h.state s).layout ∧ ((h.copyState s).1.state (h.copyState s).2).food.data = (h.state s).food.data := by
  set h1 := h.newCaps (h.caps (h.state s).capsules) with e1
  have hc : ∀ r ∈ (h.state s).agents, r < h1.next ∧ (h1.agent r).conf < h1.next ∧ (h1.agent r).start < h1.next := fun r hr =>
    ⟨Nat.lt_succ_of_lt (hl.agents r hr), Nat.lt_succ_of_lt (hl.confs r hr).1, Nat.lt_succ_of_lt (hl.confs r hr).2⟩
  obtain ⟨a1, a2, a3, a4, a5, a6, a7, a8, a9⟩ := copyAgents_spec (h.state s).agents h1 hc
  set p := h1.copyAgents (h.state s).agents with ep
  set o : StateObj := ⟨⟨(h.state s).food.width, (h.state s).food.height, (h.state s).food.data⟩, h.next, p.2, (h.state s).layout, (h.state s).eaten, (h.state s).score,
    none, none, none, false, false, 0⟩ with eo
  have hdef : h.copyState s = (p.1.newState o, p.1.next) := rfl
  rw [hdef]
  have hst : (p.1.newState o).state p.1.next = o := Function.update_self _ _ _
  have hn1 : h1.next = h.next + 1 := rfl
  have hle : h.next < p.1.next := by rw [a1, hn1]; omega
  have hlt : ∀ {r : Ref}, r < h.next → r < p.1.next + 1 := fun hr => by omega
  have hag : ∀ r ∈ p.2, h.next + 1 ≤ r ∧ r < p.1.next := by
    intro r hr
    rw [a2, List.mem_range'_1] at hr
    rw [a1]
    exact hr
  have hagc : ∀ r ∈ p.2, (p.1.agent r).conf < h.next ∧ (p.1.agent r).start < h.next := by
    intro r hr
    have : p.1.agent r ∈ p.2.map p.1.agent := List.mem_map.2 ⟨r, hr, rfl⟩
    rw [a9] at this
    obtain ⟨q, hq, he⟩ := List.mem_map.1 this
    rw [← he]
    exact hl.confs q hq
  have hread : p.2.map p.1.readAgent = (h.state s).agents.map h.readAgent := by
    have e : ∀ (q : PHeap) (l : List Ref), l.map q.readAgent = (l.map q.agent).map fun a => (⟨q.conf a.start, q.conf a.conf, a.isPacman, a.scared⟩ : Agent) := by
      intro q l; rw [List.map_map]; rfl
    rw [e, e, a9, a3]
    rfl
  refine ⟨⟨⟨Nat.lt_succ_self _, ?_, ?_, ?_, ?_, ?_, ?_⟩, ?_, ?_, ?_, ?_, ?_⟩, ⟨?_, fun r hr => ?_, fun r hr => ?_, fun r hr => ?_, fun r hr => ?_, fun r hr => ?_⟩, ?_, a6, ?_, ?_, ?_⟩
  · rw [hst]; exact Nat.lt_succ_of_lt hle
  · rw [hst]; exact fun r hr => Nat.lt_succ_of_lt (hag r hr).2
  · rw [hst]; exact fun r hr => ⟨hlt (hagc r hr).1, hlt (hagc r hr).2⟩
  · rw [hst]; exact hlt hl.food
  · rw [hst]; exact hlt hl.eaten
  · rw [hst]
    show (p.1.eaten (h.state s).eaten).length = p.2.length
    rw [a6, a2, List.length_range']
    exact hl.marks
  · show h.next ≤ p.1.next + 1; omega
  · exact le_of_lt hle
  · rw [hst]
  · rw [hst]; exact fun r hr => by have := (hag r hr).1; omega
  · rw [hst]
    show p.2.Nodup
    rw [a2]; exact List.nodup_range'
  · show h.next ≤ p.1.next + 1; omega
  · show p.1.conf r = _; rw [a3]; rfl
  · show p.1.agent r = _; rw [a8 r (Nat.lt_succ_of_lt hr)]; rfl
  · show p.1.cells r = _; rw [a4]; rfl
  · show p.1.caps r = _; rw [a5]; exact Function.update_of_ne (Nat.ne_of_lt hr) _ _
  · show Function.update p.1.state p.1.next o r = _
    rw [Function.update_of_ne (Nat.ne_of_lt (lt_trans hr hle)), a7]; rfl
  · have hcaps : p.1.caps h.next = h.caps (h.state s).capsules := by rw [a5]; exact Function.update_self _ _ _
    have hra : p.2.map (p.1.newState o).readAgent = (h.state s).agents.map h.readAgent := hread
    simp only [read, hst, GState.next, map_copy]
    rw [eo]
    simp only
    rw [hra]
    show GState.mk ⟨_, _, p.1.cells (h.state s).food.data⟩ (p.1.caps h.next) _ _ (p.1.eaten (h.state s).eaten) _ _ _ _ _ _ _ = _
    rw [a4, hcaps, a6]
    rfl
  · rw [hst]
  · rw [hst]
  · rw [hst]

end Verif.Pac.PHeap
