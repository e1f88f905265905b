import Verif.Props.PacFloat
import Verif.Props.PacAgents

/-!
# C70: ghosts with floating point distributions

`RandomGhost` and `DirectionalGhost` of `ghostAgents.py`, with the rounding of `util.py`. There are few legal actions (at most five), so the totals that
`sample` accumulates can take finitely many values; they are computed by the kernel, and a theorem for all states follows.
-/

namespace Verif.Pac

/-- The directions in the order of their names. -/
def rankList : List Dir := [.east, .north, .south, .stop, .west]

theorem items_eq (c : Counter Dir) :
    (c.entries.mergeSort fun a b => Dir.le a.1 b.1) = rankList.filterMap fun d => (c.get? d).map (Prod.mk d) := by
  have hperm := items_perm Dir.le c
  have hsorted : (c.entries.mergeSort fun a b => Dir.le a.1 b.1).Pairwise fun a b => Dir.le a.1 b.1 = true :=
    List.pairwise_mergeSort (le := fun a b : Dir × ℚ => Dir.le a.1 b.1) (fun a b c => Dir.le_trans' a.1 b.1 c.1)
      (fun a b => Dir.le_total' a.1 b.1) c.entries
  have hnod : ((c.entries.mergeSort fun a b => Dir.le a.1 b.1).map Prod.fst).Nodup := (hperm.map Prod.fst).nodup_iff.2 c.nodup
  have hstrict : (c.entries.mergeSort fun a b => Dir.le a.1 b.1).Pairwise fun a b => a.1.rank < b.1.rank := by
    rw [List.Nodup, List.pairwise_map] at hnod
    refine (hsorted.and hnod).imp ?_
    rintro ⟨a, x⟩ ⟨b, y⟩ ⟨h1, h2⟩
    revert h1 h2
    cases a <;> cases b <;> simp [Dir.le, Dir.rank]
  have hstrict2 : (rankList.filterMap fun d => (c.get? d).map (Prod.mk d)).Pairwise fun a b => a.1.rank < b.1.rank := by
    rw [List.pairwise_filterMap]
    have : rankList.Pairwise fun a b => a.rank < b.rank := by decide
    refine this.imp ?_
    intro a b hab x hx y hy
    obtain ⟨v, -, rfl⟩ := Option.map_eq_some_iff.1 hx
    obtain ⟨w, -, rfl⟩ := Option.map_eq_some_iff.1 hy
    exact hab
  have nodup_of : ∀ l : List (Dir × ℚ), (l.Pairwise fun a b => a.1.rank < b.1.rank) → l.Nodup := by
    intro l hl
    refine hl.imp ?_
    rintro a b h rfl
    exact lt_irrefl _ h
  refine List.Perm.eq_of_pairwise (le := fun a b => a.1.rank < b.1.rank) (fun a b _ _ h1 h2 => absurd h1 (lt_asymm h2)) hstrict hstrict2 ?_
  rw [List.perm_ext_iff_of_nodup (nodup_of _ hstrict) (nodup_of _ hstrict2)]
  rintro ⟨a, x⟩
  rw [hperm.mem_iff, Dict.mem_entries, List.mem_filterMap]
  constructor
  · intro h
    exact ⟨a, by cases a <;> decide, by rw [h]; rfl⟩
  · rintro ⟨d, -, hd⟩
    obtain ⟨v, hv, hx⟩ := Option.map_eq_some_iff.1 hd
    cases hx
    exact hv

/-- What is checked for a distribution over actions: the keys, floats that are not negative, the last total and the distance from the exact weights. -/
def Fine (ver : PyVer) (legal : List Dir) (w : Dir → ℚ) (c : Counter Dir) : Prop :=
  (∀ a ∈ rankList, (a ∈ c.keys ↔ a ∈ legal)) ∧ (∀ x ∈ c.vals, 0 ≤ x ∧ fl x = x) ∧ 0 < c.vals.sum ∧ c.vals.length ≤ 2 ^ 20 ∧
    1 - 1 / 2 ^ 53 ≤ plainSum (distFl ver ((rankList.filterMap fun d => (c.get? d).map (Prod.mk d)).map Prod.snd)) ∧
    ∀ a ∈ legal, |Counter.at c a - w a| ≤ 1 / 2 ^ 50

instance (ver : PyVer) (legal : List Dir) (w : Dir → ℚ) (c : Counter Dir) : Decidable (Fine ver legal w c) := by
  unfold Fine; infer_instance

theorem Fine.action {ver : PyVer} {legal : List Dir} {w : Dir → ℚ} {c : Counter Dir} (h : Fine ver legal w c) (hne : legal ≠ []) {r : ℚ}
    (hr : IsRandom r) : ∃ a ∈ legal, ghostActionFl ver (.ok c) r = .ok a := by
  obtain ⟨hk, hv, hS, hn, hl, -⟩ := h
  have hk' : ∀ a, a ∈ c.keys ↔ a ∈ legal := fun a => hk a (by cases a <;> decide)
  have hlen : c.keys.length ≠ 0 := by
    intro h0
    obtain ⟨a, ha⟩ := List.exists_mem_of_ne_nil _ hne
    have := (hk' a).2 ha
    rw [List.length_eq_zero_iff.1 h0] at this; cases this
  unfold ghostActionFl
  simp only [if_neg hlen]
  unfold sampleCounterFl
  rw [← items_eq] at hl
  have hperm := items_perm Dir.le c
  generalize (c.entries.mergeSort fun a b => Dir.le a.1 b.1) = items at hl hperm ⊢
  simp only
  have hp2 : (items.map Prod.snd).Perm c.vals := hperm.map Prod.snd
  have hw : Weights (items.map Prod.snd) :=
    ⟨fun x hx => (hv x (hp2.mem_iff.1 hx)).1, fun x hx => by rw [← (hv x (hp2.mem_iff.1 hx)).2]; exact fl_isFloat _,
      by rw [hp2.sum_eq]; exact hS, by rw [hp2.length_eq]; exact hn⟩
  obtain ⟨h1, h2⟩ := C70_sample_raises hw ver r
  have hr1 : r ≤ 1 - 1 / 2 ^ 53 := by
    obtain ⟨k, hk, rfl⟩ := hr
    have : (k : ℚ) ≤ 2 ^ 53 - 1 := by
      have : k + 1 ≤ 2 ^ 53 := hk
      have : ((k + 1 : ℕ) : ℚ) ≤ ((2 ^ 53 : ℕ) : ℚ) := Nat.cast_le.2 this
      push_cast at this
      linarith
    rw [div_le_iff₀ (by norm_num)]
    norm_num at this ⊢
    linarith
  unfold sampleListFl
  cases hs : sampleIdxFl ver (items.map Prod.snd) r with
  | error e =>
    have he := h2 e hs
    subst he
    have := h1.1 hs
    linarith
  | ok i =>
    obtain ⟨hi, -⟩ := (C70_sample hw ver r).1 i hs
    rw [List.length_map] at hi
    simp only [List.getElem?_map, List.getElem?_eq_getElem hi, Option.map_some]
    refine ⟨_, (hk' _).1 ?_, rfl⟩
    have := hperm.mem_iff.1 (List.getElem_mem hi)
    exact List.mem_map_of_mem (f := Prod.fst) this

theorem legal_sublist {s : GState} {i : ℕ} {l : List Dir} (h : legalActions s i = .ok l) : l ∈ dirList.sublists := by
  rw [List.mem_sublists]
  have hposs : ∀ {c : Config} {m : List Dir}, possibleActions c s.layout.walls = .ok m → m.Sublist dirList := by
    intro c m hm
    unfold possibleActions at hm
    dsimp only at hm
    split at hm
    · cases hm; rw [List.singleton_sublist]; cases c.dir <;> decide
    · exact possibleLoop_sublist hm
  unfold legalActions at h
  split at h
  · cases h; exact List.nil_sublist _
  · split at h
    · unfold pacLegal at h
      split at h
      · cases h
      · exact hposs h
    · unfold ghostLegal at h
      split at h
      · cases h
      · split at h
        · cases h
        · rename_i m hm
          cases h
          unfold ghostFilter
          dsimp only
          split
          · exact (List.erase_sublist.trans List.erase_sublist).trans (hposs hm)
          · exact List.erase_sublist.trans (hposs hm)

/-- All cases of random ghosts. -/
theorem random_fine : ∀ ver ∈ [PyVer.plain, .compensated], ∀ legal ∈ dirList.sublists, legal ≠ [] →
    Fine ver legal (fun _ => 1 / (legal.length : ℚ)) (Counter.normalizeFl ver (legal.foldl (fun c a => c.set a 1) Dict.empty)) := by
  decide +kernel

/-- The literal `0.8`. -/
def eightTenths : ℚ := fl (8 / 10)

theorem directional_fine_plain0 : ∀ legal ∈ (dirList.sublists.drop 0).take 8, ∀ best ∈ legal.sublists, best ≠ [] →
    Fine .plain legal (fun a => (if a ∈ best then 4 / 5 / (best.length : ℚ) else 0) + 1 / 5 / (legal.length : ℚ)) (mixDistFl .plain legal best eightTenths) := by
  decide +kernel

theorem directional_fine_plain1 : ∀ legal ∈ (dirList.sublists.drop 8).take 8, ∀ best ∈ legal.sublists, best ≠ [] →
    Fine .plain legal (fun a => (if a ∈ best then 4 / 5 / (best.length : ℚ) else 0) + 1 / 5 / (legal.length : ℚ)) (mixDistFl .plain legal best eightTenths) := by
  decide +kernel

theorem directional_fine_plain2 : ∀ legal ∈ (dirList.sublists.drop 16).take 8, ∀ best ∈ legal.sublists, best ≠ [] →
    Fine .plain legal (fun a => (if a ∈ best then 4 / 5 / (best.length : ℚ) else 0) + 1 / 5 / (legal.length : ℚ)) (mixDistFl .plain legal best eightTenths) := by
  decide +kernel

theorem directional_fine_plain3 : ∀ legal ∈ (dirList.sublists.drop 24).take 8, ∀ best ∈ legal.sublists, best ≠ [] →
    Fine .plain legal (fun a => (if a ∈ best then 4 / 5 / (best.length : ℚ) else 0) + 1 / 5 / (legal.length : ℚ)) (mixDistFl .plain legal best eightTenths) := by
  decide +kernel

theorem directional_fine_compensated0 : ∀ legal ∈ (dirList.sublists.drop 0).take 8, ∀ best ∈ legal.sublists, best ≠ [] →
    Fine .compensated legal (fun a => (if a ∈ best then 4 / 5 / (best.length : ℚ) else 0) + 1 / 5 / (legal.length : ℚ)) (mixDistFl .compensated legal best eightTenths) := by
  decide +kernel

theorem directional_fine_compensated1 : ∀ legal ∈ (dirList.sublists.drop 8).take 8, ∀ best ∈ legal.sublists, best ≠ [] →
    Fine .compensated legal (fun a => (if a ∈ best then 4 / 5 / (best.length : ℚ) else 0) + 1 / 5 / (legal.length : ℚ)) (mixDistFl .compensated legal best eightTenths) := by
  decide +kernel

theorem directional_fine_compensated2 : ∀ legal ∈ (dirList.sublists.drop 16).take 8, ∀ best ∈ legal.sublists, best ≠ [] →
    Fine .compensated legal (fun a => (if a ∈ best then 4 / 5 / (best.length : ℚ) else 0) + 1 / 5 / (legal.length : ℚ)) (mixDistFl .compensated legal best eightTenths) := by
  decide +kernel

theorem directional_fine_compensated3 : ∀ legal ∈ (dirList.sublists.drop 24).take 8, ∀ best ∈ legal.sublists, best ≠ [] →
    Fine .compensated legal (fun a => (if a ∈ best then 4 / 5 / (best.length : ℚ) else 0) + 1 / 5 / (legal.length : ℚ)) (mixDistFl .compensated legal best eightTenths) := by
  decide +kernel

/-- All cases of directional ghosts with the default probabilities. -/
theorem directional_fine : ∀ ver ∈ [PyVer.plain, .compensated], ∀ legal ∈ dirList.sublists, ∀ best ∈ legal.sublists, best ≠ [] →
    Fine ver legal (fun a => (if a ∈ best then 4 / 5 / (best.length : ℚ) else 0) + 1 / 5 / (legal.length : ℚ)) (mixDistFl ver legal best eightTenths) := by
  have hl : dirList.sublists = (dirList.sublists.drop 0).take 8 ++ ((dirList.sublists.drop 8).take 8 ++ ((dirList.sublists.drop 16).take 8 ++
      (dirList.sublists.drop 24).take 8)) := by decide +kernel
  intro ver hv legal h
  rw [hl, List.mem_append, List.mem_append, List.mem_append] at h
  rcases h with h | h | h | h <;> cases ver
  · exact directional_fine_plain0 legal h
  · exact directional_fine_compensated0 legal h
  · exact directional_fine_plain1 legal h
  · exact directional_fine_compensated1 legal h
  · exact directional_fine_plain2 legal h
  · exact directional_fine_compensated2 legal h
  · exact directional_fine_plain3 legal h
  · exact directional_fine_compensated3 legal h

/-! ### Theorems -/

/-- **C70.** A `RandomGhost` with floats: in every state with a legal action and for every number `random.random()` can return it chooses a legal action;
its probabilities are within `2 ^ -50` of `1 / n`. Without legal actions it stops. -/
theorem C70_random_ghost (ver : PyVer) {s : GState} {i : ℕ} {legal : List Dir} (h : legalActions s i = .ok legal) :
    (legal = [] → ∀ r, ghostActionFl ver (randomDistFl ver s i) r = .ok .stop) ∧
    (legal ≠ [] → (∀ r, IsRandom r → ∃ a ∈ legal, ghostActionFl ver (randomDistFl ver s i) r = .ok a) ∧
      ∃ c, randomDistFl ver s i = .ok c ∧ (∀ a, a ∈ c.keys ↔ a ∈ legal) ∧ ∀ a ∈ legal, |Counter.at c a - 1 / legal.length| ≤ 1 / 2 ^ 50) := by
  have hc : randomDistFl ver s i = .ok (Counter.normalizeFl ver (legal.foldl (fun c a => c.set a 1) Dict.empty)) := by
    unfold randomDistFl; rw [h]
  rw [hc]
  constructor
  · rintro rfl r
    unfold ghostActionFl
    have : (Counter.normalizeFl ver (([] : List Dir).foldl (fun c a => c.set a 1) (Dict.empty : Counter Dir))).keys.length = 0 := by
      cases ver <;> decide +kernel
    simp only [this, if_true]
  · intro hne
    have hf := random_fine ver (by cases ver <;> simp) legal (legal_sublist h) hne
    exact ⟨fun r hr => hf.action hne hr, _, rfl, fun a => hf.1 a (by cases a <;> decide), hf.2.2.2.2.2⟩

/-- **C70.** A `DirectionalGhost` with the default probabilities `0.8`, with floats: for every number `random.random()` can return it chooses a legal action;
its probabilities are within `2 ^ -50` of the exact ones. -/
theorem C70_directional (ver : PyVer) {s : GState} {i : ℕ} {g pac : Agent} (hg : ghostState s i = .ok g) (hpac : s.agents[0]? = some pac)
    {legal : List Dir} (h : legalActions s i = .ok legal) (hne : legal ≠ []) :
    (∀ r, IsRandom r → ∃ a ∈ legal, ghostActionFl ver (directionalDistFl ver eightTenths eightTenths s i) r = .ok a) ∧
    ∃ c m, directionalDistFl ver eightTenths eightTenths s i = .ok c ∧ (∀ a, a ∈ c.keys ↔ a ∈ legal) ∧
      (∃ best : List Dir, best.Nodup ∧ best.length = m ∧ 0 < m ∧ ∀ a, a ∈ best ↔ Preferred g pac legal a) ∧
      ∀ a ∈ legal, (Preferred g pac legal a → |Counter.at c a - (4 / 5 / m + 1 / 5 / legal.length)| ≤ 1 / 2 ^ 50) ∧
        (¬ Preferred g pac legal a → |Counter.at c a - 1 / 5 / legal.length| ≤ 1 / 2 ^ 50) := by
  obtain ⟨b, hb, hspec⟩ := bestScore_spec g pac hne
  have hbest : ∀ a, a ∈ (legal.filter fun a => decide (manhattan (newPos g a) pac.conf.pos = b)) ↔ Preferred g pac legal a := by
    intro a
    rw [List.mem_filter, decide_eq_true_eq]
    exact ⟨fun ⟨h1, h2⟩ => (hspec a h1).1 h2, fun h => ⟨h.1, (hspec a h.1).2 h⟩⟩
  have hn := legal_nodup h
  have hbn : (legal.filter fun a => decide (manhattan (newPos g a) pac.conf.pos = b)).Nodup := hn.filter _
  have hbne : (legal.filter fun a => decide (manhattan (newPos g a) pac.conf.pos = b)) ≠ [] := by
    obtain ⟨x, t, rfl⟩ := List.exists_cons_of_ne_nil hne
    rw [List.map_cons] at hb
    unfold bestScore at hb
    have hm : b ∈ (x :: t).map fun a => manhattan (newPos g a) pac.conf.pos := by
      rw [List.map_cons]
      cases hb
      split
      · exact (foldl_max_spec _ _).1
      · exact (foldl_min_spec _ _).1
    obtain ⟨y, hy, he⟩ := List.mem_map.1 hm
    exact List.ne_nil_of_mem (List.mem_filter.2 ⟨hy, by simpa using he⟩)
  have hc : directionalDistFl ver eightTenths eightTenths s i =
      .ok (mixDistFl ver legal (legal.filter fun a => decide (manhattan (newPos g a) pac.conf.pos = b)) eightTenths) := by
    unfold directionalDistFl
    rw [hg, h, hpac]
    simp only [hb, ite_self]
  rw [hc]
  have hsub : (legal.filter fun a => decide (manhattan (newPos g a) pac.conf.pos = b)) ∈ legal.sublists := List.mem_sublists.2 List.filter_sublist
  generalize (legal.filter fun a => decide (manhattan (newPos g a) pac.conf.pos = b)) = best at hbest hbn hbne hsub ⊢
  have hf := directional_fine ver (by cases ver <;> simp) legal (legal_sublist h) best hsub hbne
  refine ⟨fun r hr => hf.action hne hr, _, best.length, rfl, fun a => hf.1 a (by cases a <;> decide),
    ⟨best, hbn, rfl, List.length_pos_iff.2 hbne, hbest⟩, fun a ha => ?_⟩
  have := hf.2.2.2.2.2 a ha
  constructor
  · intro hp
    simpa only [if_pos ((hbest a).2 hp)] using this
  · intro hp
    simpa only [if_neg (fun hc => hp ((hbest a).1 hc)), zero_add] using this

/-- The demo with floats: Pacman is moved by the keyboard, the ghosts are random; the random numbers are those of `random.random()`. -/
def demoActFl (ver : PyVer) (keys : ℕ → Dir → Bool) (last : ℕ → Dir) (rnd : ℕ → ℕ) (rs : ℕ → ℚ) (k i : ℕ) (obs : GState) : Except PErr Dir :=
  if i = 0 then match legalActions obs 0 with
    | .error e => .error e
    | .ok legal => keyboardAction (keys k) (last k) (rnd k) legal
  else ghostActionFl ver (randomDistFl ver obs i) (rs k)

/-- **C70.** The demo never crashes with floats either: the `IndexError` of `sample` cannot occur in it. -/
theorem C70_demo (ver : PyVer) (keys : ℕ → Dir → Bool) (last : ℕ → Dir) (rnd : ℕ → ℕ) (rs : ℕ → ℚ) (hrs : ∀ k, IsRandom (rs k)) :
    ∃ l, Layout.ofText mediumClassic = .ok l ∧ ∀ (catchExc : Bool) (n : ℕ),
      let r := Run.loop (demoActFl ver keys last rnd rs) catchExc (newGameAgents l 2) n 0 (Run.start l 2)
      (r.status = .running ∧ r.moveHistory.length = n) ∨ (r.status = .finished ∧ (r.state.win = true ∨ r.state.lose = true)) := by
  obtain ⟨h1, h2, h3⟩ := C55_demo
  obtain ⟨l, hl, h⟩ := C55_text h1 h2 h3 2
  refine ⟨l, hl, h _ ?_⟩
  intro k i obs legal hleg hne
  unfold demoActFl
  by_cases hi : i = 0
  · subst hi
    rw [if_pos rfl, hleg]
    exact (C57_keyboard (keys k) (last k) (rnd k) hne).1
  · rw [if_neg hi]
    exact ((C70_random_ghost ver hleg).2 hne).1 _ (hrs k)

/-! ### Witnesses -/

/-- A junction: the cells `(1, 2)`, `(2, 2)`, `(3, 2)` and `(2, 3)` are open. -/
def junction : Grid := ⟨5, 5, [[true, true, true, true, true], [true, true, false, true, true], [true, true, false, false, true],
  [true, true, false, true, true], [true, true, true, true, true]]⟩

/-- Pacman in the east, a ghost in the middle. -/
def junctionState : GState :=
  ⟨Grid.new 5 5 false, [], [⟨⟨cellAt (3, 2), .stop⟩, ⟨cellAt (3, 2), .stop⟩, true, 0⟩, ⟨⟨cellAt (2, 2), .stop⟩, ⟨cellAt (2, 2), .stop⟩, false, 0⟩],
   ⟨5, 5, junction, Grid.new 5 5 false, [], [], 0, [], 0⟩, [false, false], 0, none, none, none, false, false, 0⟩

/-- **C70.** With other probabilities a directional ghost can crash: before Python 3.12, with `prob_attack=0.7` and three legal actions, `sample` raises
`IndexError` for the largest number that `random.random()` returns. The ghost with the default probabilities meets the hypotheses of `C70_directional` here. -/
theorem C70_directional_raises : legalActions junctionState 1 = .ok [.north, .east, .west] ∧
    ghostActionFl .plain (directionalDistFl .plain (fl (7 / 10)) (fl (7 / 10)) junctionState 1) (1 - 1 / 2 ^ 53) = .error .index ∧
    ∃ a ∈ ([.north, .east, .west] : List Dir),
      ghostActionFl .plain (directionalDistFl .plain eightTenths eightTenths junctionState 1) (1 - 1 / 2 ^ 53) = .ok a := by
  have hl : legalActions junctionState 1 = .ok [.north, .east, .west] := by decide +kernel
  refine ⟨hl, ?_, ?_⟩
  · have hd : directionalDistFl .plain (fl (7 / 10)) (fl (7 / 10)) junctionState 1 = .ok (mixDistFl .plain [.north, .east, .west] [.east] (fl (7 / 10))) := by
      decide +kernel
    rw [hd]
    unfold ghostActionFl sampleCounterFl
    dsimp only
    rw [items_eq]
    decide +kernel
  · exact (C70_directional .plain (g := ⟨⟨cellAt (2, 2), .stop⟩, ⟨cellAt (2, 2), .stop⟩, false, 0⟩)
      (pac := ⟨⟨cellAt (3, 2), .stop⟩, ⟨cellAt (3, 2), .stop⟩, true, 0⟩) (by rfl) (by rfl) hl (by simp)).1 _ ⟨2 ^ 53 - 1, by decide, by norm_num⟩

end Verif.Pac
