import Mathlib.Tactic.Linarith
import Verif.Props.PacSample
import Verif.Props.PacRun

/-! # C57: the agents of the demo game -/

namespace Verif.Pac

/-! ### Legal actions are different -/

theorem possibleLoop_sublist {walls : Grid} {x y : ℤ} : ∀ {l m : List Dir}, possibleLoop walls x y l = .ok m → m.Sublist l := by
  intro l
  induction l with
  | nil => intro m h; unfold possibleLoop at h; cases h; exact List.Sublist.refl _
  | cons d t ih =>
    intro m h
    unfold possibleLoop at h
    split at h
    · cases h
    · split at h
      · cases h
      · rename_i w _ _ l' hl
        cases h
        split
        · exact (ih hl).cons d
        · exact (ih hl).cons_cons d

theorem legal_nodup {s : GState} {i : ℕ} {l : List Dir} (h : legalActions s i = .ok l) : l.Nodup := by
  have hposs : ∀ {c : Config} {m : List Dir}, possibleActions c s.layout.walls = .ok m → m.Nodup := by
    intro c m hm
    unfold possibleActions at hm
    dsimp only at hm
    split at hm
    · cases hm; simp
    · exact (possibleLoop_sublist hm).nodup (by decide)
  unfold legalActions at h
  split at h
  · cases h; exact List.nodup_nil
  · split at h
    · unfold pacLegal at h
      split at h
      · cases h
      · exact hposs h
    · unfold ghostLegal at h
      split at h
      · cases h
      · split at h
        · cases h
        · rename_i m hm
          cases h
          unfold ghostFilter
          have : (m.erase Dir.stop).Nodup := (hposs hm).erase _
          dsimp only
          split
          · exact this.erase _
          · exact this

/-! ### Order of names -/

theorem Dir.le_trans' (a b c : Dir) : Dir.le a b → Dir.le b c → Dir.le a c := by cases a <;> cases b <;> cases c <;> decide
theorem Dir.le_total' (a b : Dir) : (Dir.le a b || Dir.le b a) = true := by cases a <;> cases b <;> decide
theorem Dir.le_antisymm' (a b : Dir) : Dir.le a b → Dir.le b a → a = b := by cases a <;> cases b <;> decide

/-! ### Random ghosts -/

/-- A counter with the value `v` for the keys in `l`. -/
theorem const_fold (l : List Dir) (v : ℚ) : (∀ x, Counter.at (l.foldl (fun c a => c.set a v) (Dict.empty : Counter Dir)) x = if x ∈ l then v else 0) ∧
    ∀ x, x ∈ (l.foldl (fun c a => c.set a v) (Dict.empty : Counter Dir)).keys ↔ x ∈ l := by
  have h := fun x => get?_foldl_set (fun _ : Dir => true) (fun _ => v) l (Dict.empty : Counter Dir) x
  simp only [and_true, if_true] at h
  constructor
  · intro x; unfold Counter.at; rw [h]; split <;> rfl
  · intro x; rw [Dict.mem_keys, h]; by_cases hx : x ∈ l <;> simp [hx]

/-- The position of a direction among others in the order of names. -/
def rankIn (l : List Dir) (a : Dir) : ℕ := (l.filter fun x => decide (x.rank < a.rank)).length

/-- **C57** The distribution of a `RandomGhost`: equal values for exactly the legal actions, with total one (empty if there is no legal action). -/
theorem C57_random_dist {s : GState} {i : ℕ} {legal : List Dir} (h : legalActions s i = .ok legal) :
    ∃ c, randomDist s i = .ok c ∧ (∀ a, a ∈ c.keys ↔ a ∈ legal) ∧ (legal ≠ [] → c.total = 1) ∧ ∀ a, c.at a = if a ∈ legal then 1 / (legal.length : ℚ) else 0 := by
  refine ⟨_, by unfold randomDist; rw [h], ?_⟩
  obtain ⟨h1, h2⟩ := const_fold legal 1
  generalize legal.foldl (fun c a => c.set a 1) (Dict.empty : Counter Dir) = c0 at h1 h2
  obtain ⟨c, rfl⟩ : ∃ c : Counter Dir, c = c0 := ⟨c0, rfl⟩
  have hn := legal_nodup h
  have htot : c.total = legal.length := by
    rw [total_eq_finset c legal.toFinset (fun k hk => List.mem_toFinset.2 ((h2 k).1 hk)), List.sum_toFinset _ hn]
    rw [List.map_congr_left (g := fun _ => (1 : ℚ)) fun a ha => by rw [h1, if_pos ha]]
    simp
  by_cases hz : legal = []
  · have hc : c.total = 0 := by rw [htot, hz]; rfl
    rw [(C57_normalize c).2 hc]
    refine ⟨h2, fun hne => absurd hz hne, fun a => ?_⟩
    rw [h1, hz]; simp
  · have hne : c.total ≠ 0 := by
      rw [htot]; exact_mod_cast fun h => hz (List.length_eq_zero_iff.1 h)
    obtain ⟨a, b, d⟩ := (C57_normalize c).1 hne
    refine ⟨fun x => by rw [b]; exact h2 x, fun _ => d, fun x => ?_⟩
    rw [a, h1, htot]; split
    · rfl
    · simp

/-- **C57** A `RandomGhost` answers with a legal action whenever there is one, each for an interval of random numbers of length `1 / n`; without
a legal action it answers `Stop`. -/
theorem C57_random_ghost {s : GState} {i : ℕ} {legal : List Dir} (h : legalActions s i = .ok legal) {r : ℚ} (hr1 : r < 1) :
    (legal = [] → ghostAction (randomDist s i) r = .ok .stop) ∧
    (legal ≠ [] → (∃ a ∈ legal, ghostAction (randomDist s i) r = .ok a) ∧
      (0 < r → ∀ a, ghostAction (randomDist s i) r = .ok a ↔
        a ∈ legal ∧ (rankIn legal a : ℚ) / legal.length < r ∧ r ≤ (rankIn legal a + 1 : ℚ) / legal.length)) := by
  obtain ⟨c, hc, hk, ht, hat⟩ := C57_random_dist h
  rw [hc]
  constructor
  · intro hz
    have : c.keys = [] := List.eq_nil_iff_forall_not_mem.2 fun a ha => by have := (hk a).1 ha; rw [hz] at this; cases this
    unfold ghostAction; simp [this]
  · intro hne
    have hlen : c.keys.length ≠ 0 := by
      intro h0
      obtain ⟨a, ha⟩ := List.exists_mem_of_ne_nil _ hne
      have := (hk a).2 ha
      rw [List.length_eq_zero_iff.1 h0] at this; cases this
    have hpos : (0 : ℚ) < legal.length := by exact_mod_cast List.length_pos_iff.2 hne
    have ha : ghostAction (.ok c) r = sampleCounter Dir.le c r := by unfold ghostAction; simp only [if_neg hlen]
    have h0 : ∀ k, 0 ≤ c.at k := fun k => by
      rw [hat]; split
      · positivity
      · exact le_refl _
    obtain ⟨s1, s2⟩ := C57_sample_counter Dir.le_trans' Dir.le_total' Dir.le_antisymm' h0 (by rw [ht hne]; norm_num) (r := r) hr1.le
    rw [ha]
    constructor
    · obtain ⟨a, h1, h2⟩ := s1; exact ⟨a, (hk a).1 h1, h2⟩
    · intro hr0 a
      rw [s2 hr0 a, hk, ht hne]
      refine and_congr_right fun hal => ?_
      have hw : weightBefore Dir.le c a = rankIn legal a / legal.length := by
        unfold weightBefore rankIn
        have hperm : c.keys.Perm legal := (List.perm_ext_iff_of_nodup c.nodup_keys (legal_nodup h)).2 hk
        rw [((hperm.filter _).map c.at).sum_eq]
        rw [List.map_congr_left (g := fun _ => 1 / (legal.length : ℚ)) fun x hx => by rw [hat, if_pos (List.mem_filter.1 hx).1]]
        rw [List.map_const', List.sum_replicate, nsmul_eq_mul, mul_one_div]
        congr 3
        refine List.filter_congr fun x _ => ?_
        unfold Dir.le
        have : ∀ x a : Dir, (decide (x.rank ≤ a.rank) && decide (x ≠ a)) = decide (x.rank < a.rank) := by
          intro x a; cases x <;> cases a <;> decide
        exact this x a
      rw [hw, hat, if_pos hal, div_one, div_one, add_div]

/-! ### Directional ghosts -/

theorem foldl_max_spec (l : List ℚ) (d : ℚ) : l.foldl max d ∈ d :: l ∧ ∀ x ∈ d :: l, x ≤ l.foldl max d := by
  induction l generalizing d with
  | nil => simp
  | cons a t ih =>
    obtain ⟨h1, h2⟩ := ih (max d a)
    rw [List.foldl_cons]
    constructor
    · rcases List.mem_cons.1 h1 with h | h
      · rw [h]; rcases max_choice d a with e | e <;> rw [e] <;> simp
      · exact List.mem_cons_of_mem _ (List.mem_cons_of_mem _ h)
    · intro x hx
      have hm := h2 _ List.mem_cons_self
      rcases List.mem_cons.1 hx with rfl | hx
      · exact le_trans (le_max_left _ _) hm
      · rcases List.mem_cons.1 hx with rfl | hx
        · exact le_trans (le_max_right _ _) hm
        · exact h2 x (List.mem_cons_of_mem _ hx)

theorem foldl_min_spec (l : List ℚ) (d : ℚ) : l.foldl min d ∈ d :: l ∧ ∀ x ∈ d :: l, l.foldl min d ≤ x := by
  induction l generalizing d with
  | nil => simp
  | cons a t ih =>
    obtain ⟨h1, h2⟩ := ih (min d a)
    rw [List.foldl_cons]
    constructor
    · rcases List.mem_cons.1 h1 with h | h
      · rw [h]; rcases min_choice d a with e | e <;> rw [e] <;> simp
      · exact List.mem_cons_of_mem _ (List.mem_cons_of_mem _ h)
    · intro x hx
      have hm := h2 _ List.mem_cons_self
      rcases List.mem_cons.1 hx with rfl | hx
      · exact le_trans hm (min_le_left _ _)
      · rcases List.mem_cons.1 hx with rfl | hx
        · exact le_trans hm (min_le_right _ _)
        · exact h2 x (List.mem_cons_of_mem _ hx)

/-- The distribution over actions made of a share for the best ones and a share for all. -/
theorem mixDist_spec {legal best : List Dir} (hn : legal.Nodup) (hb : best.Nodup) (hsub : ∀ a ∈ best, a ∈ legal) (hne : best ≠ []) (q : ℚ) :
    (mixDist legal best q).total = 1 ∧ (∀ a, a ∈ (mixDist legal best q).keys ↔ a ∈ legal) ∧
    ∀ a ∈ legal, (mixDist legal best q).at a = (if a ∈ best then q / best.length else 0) + (1 - q) / legal.length := by
  have hl : legal ≠ [] := by
    obtain ⟨a, ha⟩ := List.exists_mem_of_ne_nil _ hne
    exact List.ne_nil_of_mem (hsub a ha)
  obtain ⟨h1, h2⟩ := const_fold best (q / best.length)
  obtain ⟨h3, h4⟩ := C57_incrementAll (best.foldl (fun c a => c.set a (q / best.length)) (Dict.empty : Counter Dir)) legal ((1 - q) / legal.length)
  unfold Counter.incrementAll at h3 h4
  unfold mixDist
  generalize legal.foldl (fun c a => Counter.inc c a ((1 - q) / legal.length)) (best.foldl (fun c a => c.set a (q / best.length)) (Dict.empty : Counter Dir)) = c at h3 h4
  have hk : ∀ a, a ∈ c.keys ↔ a ∈ legal := by
    intro a; rw [h4, h2]; exact ⟨fun h => h.elim id (hsub a), Or.inl⟩
  have hat : ∀ a ∈ legal, c.at a = (if a ∈ best then q / best.length else 0) + (1 - q) / legal.length := by
    intro a ha; rw [h3, h1, List.count_eq_one_of_mem hn ha]; simp
  have hbl : (best.length : ℚ) ≠ 0 := by exact_mod_cast fun h => hne (List.length_eq_zero_iff.1 h)
  have hll : (legal.length : ℚ) ≠ 0 := by exact_mod_cast fun h => hl (List.length_eq_zero_iff.1 h)
  have htot : c.total = 1 := by
    rw [total_eq_finset c legal.toFinset (fun k hk' => List.mem_toFinset.2 ((hk k).1 hk'))]
    rw [Finset.sum_congr rfl (g := fun a => (if a ∈ best then q / best.length else 0) + (1 - q) / (legal.length : ℚ))
      (fun a ha => hat a (List.mem_toFinset.1 ha)), Finset.sum_add_distrib]
    have e1 : (∑ a ∈ legal.toFinset, if a ∈ best then q / (best.length : ℚ) else 0) = ∑ a ∈ best.toFinset, q / (best.length : ℚ) := by
      rw [← Finset.sum_filter]
      congr 1
      ext a; simp only [Finset.mem_filter, List.mem_toFinset]
      exact ⟨fun h => h.2, fun h => ⟨hsub a h, h⟩⟩
    rw [e1, Finset.sum_const, Finset.sum_const, List.toFinset_card_of_nodup hb, List.toFinset_card_of_nodup hn, nsmul_eq_mul, nsmul_eq_mul,
      mul_div_cancel₀ _ hbl, mul_div_cancel₀ _ hll]
    ring
  obtain ⟨a, b, d⟩ := (C57_normalize c).1 (by rw [htot]; norm_num)
  refine ⟨d, fun x => by rw [b]; exact hk x, fun x hx => ?_⟩
  rw [a, htot, div_one, hat x hx]

/-- Distance from Pacman after an action. -/
def distAfter (g pac : Agent) (a : Dir) : ℚ :=
  let v := directionToVector a (if g.scared > 0 then 1 / 2 else 1)
  |g.conf.pos.1 + v.1 - pac.conf.pos.1| + |g.conf.pos.2 + v.2 - pac.conf.pos.2|

/-- The actions a directional ghost prefers: nearest to Pacman, or farthest if it is scared. -/
def Preferred (g pac : Agent) (legal : List Dir) (a : Dir) : Prop :=
  a ∈ legal ∧ ∀ b ∈ legal, if g.scared > 0 then distAfter g pac b ≤ distAfter g pac a else distAfter g pac a ≤ distAfter g pac b

/-- The best score is that of exactly the preferred actions. -/
theorem bestScore_spec (g pac : Agent) {legal : List Dir} (hne : legal ≠ []) :
    ∃ b, bestScore (decide (g.scared > 0)) (legal.map fun a => manhattan (newPos g a) pac.conf.pos) = .ok b ∧
      ∀ a ∈ legal, (manhattan (newPos g a) pac.conf.pos = b ↔ Preferred g pac legal a) := by
  have hdist : ∀ a, manhattan (newPos g a) pac.conf.pos = distAfter g pac a := fun a => rfl
  obtain ⟨x, t, rfl⟩ := List.exists_cons_of_ne_nil hne
  rw [List.map_cons]
  unfold bestScore
  refine ⟨_, rfl, ?_⟩
  intro a ha
  unfold Preferred
  by_cases hsc : g.scared > 0
  · simp only [hsc, decide_true, if_true]
    obtain ⟨h1, h2⟩ := foldl_max_spec (t.map fun a => manhattan (newPos g a) pac.conf.pos) (manhattan (newPos g x) pac.conf.pos)
    rw [← List.map_cons (f := fun a => manhattan (newPos g a) pac.conf.pos)] at h1 h2
    constructor
    · intro e
      refine ⟨ha, fun y hy => ?_⟩
      rw [← hdist, ← hdist, e]; exact h2 _ (List.mem_map_of_mem hy)
    · rintro ⟨-, e⟩
      obtain ⟨y, hy, hye⟩ := List.mem_map.1 h1
      refine le_antisymm (h2 _ (List.mem_map_of_mem ha)) ?_
      rw [← hye]; have := e y hy; rwa [← hdist, ← hdist] at this
  · simp only [hsc, decide_false, if_false, Bool.false_eq_true]
    obtain ⟨h1, h2⟩ := foldl_min_spec (t.map fun a => manhattan (newPos g a) pac.conf.pos) (manhattan (newPos g x) pac.conf.pos)
    rw [← List.map_cons (f := fun a => manhattan (newPos g a) pac.conf.pos)] at h1 h2
    constructor
    · intro e
      refine ⟨ha, fun y hy => ?_⟩
      rw [← hdist, ← hdist, e]; exact h2 _ (List.mem_map_of_mem hy)
    · rintro ⟨-, e⟩
      obtain ⟨y, hy, hye⟩ := List.mem_map.1 h1
      refine le_antisymm ?_ (h2 _ (List.mem_map_of_mem ha))
      rw [← hye]; have := e y hy; rwa [← hdist, ← hdist] at this

/-- **C57** The distribution of a `DirectionalGhost`: the total is one, exactly the legal actions are keys, and each has the value `(1 - q) / n`, to
which `q / m` is added for the `m` preferred actions. It raises `ValueError` if there is no legal action. -/
theorem C57_directional {s : GState} {i : ℕ} {g pac : Agent} (hg : ghostState s i = .ok g) (hpac : s.agents[0]? = some pac) {legal : List Dir}
    (h : legalActions s i = .ok legal) (qa qf : ℚ) :
    (legal = [] → directionalDist qa qf s i = .error .value) ∧
    (legal ≠ [] → ∃ c m, directionalDist qa qf s i = .ok c ∧ c.total = 1 ∧ (∀ a, a ∈ c.keys ↔ a ∈ legal) ∧
      (∃ best : List Dir, best.Nodup ∧ best.length = m ∧ 0 < m ∧ ∀ a, a ∈ best ↔ Preferred g pac legal a) ∧
      ∀ a ∈ legal, (Preferred g pac legal a → c.at a = (if g.scared > 0 then qf else qa) / m + (1 - if g.scared > 0 then qf else qa) / legal.length) ∧
        (¬ Preferred g pac legal a → c.at a = (1 - if g.scared > 0 then qf else qa) / legal.length)) := by
  constructor
  · intro hz
    unfold directionalDist
    rw [hg, h, hpac, hz]
    rfl
  · intro hne
    obtain ⟨b, hb, hspec⟩ := bestScore_spec g pac hne
    have hbest : ∀ a, a ∈ (legal.filter fun a => decide (manhattan (newPos g a) pac.conf.pos = b)) ↔ Preferred g pac legal a := by
      intro a
      rw [List.mem_filter, decide_eq_true_eq]
      exact ⟨fun ⟨h1, h2⟩ => (hspec a h1).1 h2, fun h => ⟨h.1, (hspec a h.1).2 h⟩⟩
    have hn := legal_nodup h
    have hbn : (legal.filter fun a => decide (manhattan (newPos g a) pac.conf.pos = b)).Nodup := hn.filter _
    have hbne : (legal.filter fun a => decide (manhattan (newPos g a) pac.conf.pos = b)) ≠ [] := by
      obtain ⟨x, t, rfl⟩ := List.exists_cons_of_ne_nil hne
      rw [List.map_cons] at hb
      unfold bestScore at hb
      have hm : b ∈ (x :: t).map fun a => manhattan (newPos g a) pac.conf.pos := by
        rw [List.map_cons]
        cases hb
        split
        · exact (foldl_max_spec _ _).1
        · exact (foldl_min_spec _ _).1
      obtain ⟨y, hy, he⟩ := List.mem_map.1 hm
      exact List.ne_nil_of_mem (List.mem_filter.2 ⟨hy, by simpa using he⟩)
    obtain ⟨m1, m2, m3⟩ := mixDist_spec hn hbn (fun a ha => (List.mem_filter.1 ha).1) hbne (if g.scared > 0 then qf else qa)
    refine ⟨_, _, ?_, m1, m2, ⟨_, hbn, rfl, List.length_pos_iff.2 hbne, hbest⟩, ?_⟩
    · unfold directionalDist
      rw [hg, h, hpac]
      simp only [hb, decide_eq_true_eq]
    · intro a ha
      constructor
      · intro hp; rw [m3 a ha, if_pos ((hbest a).2 hp)]
      · intro hp; rw [m3 a ha, if_neg (fun hc => hp ((hbest a).1 hc)), zero_add]

/-- **C57** A `DirectionalGhost` with probabilities between zero and one answers with a legal action whenever there is one. -/
theorem C57_directional_legal {s : GState} {i : ℕ} {legal : List Dir} (h : legalActions s i = .ok legal) (hne : legal ≠ []) (hi : i ≠ 0) {qa qf : ℚ}
    (ha0 : 0 ≤ qa) (ha1 : qa ≤ 1) (hf0 : 0 ≤ qf) (hf1 : qf ≤ 1) {r : ℚ} (hr1 : r < 1) :
    ∃ a ∈ legal, ghostAction (directionalDist qa qf s i) r = .ok a := by
  have hg : ∃ g, ghostState s i = .ok g := by
    unfold legalActions at h
    split at h
    · cases h; exact absurd rfl hne
    · unfold ghostLegal at h
      cases hgs : ghostState s i with
      | error e => rw [hgs] at h; cases h
      | ok g => exact ⟨g, rfl⟩
  obtain ⟨g, hg⟩ := hg
  have hpac : ∃ pac, s.agents[0]? = some pac := by
    unfold ghostState at hg
    split at hg
    · cases hg
    · rename_i a ha
      have := (List.getElem?_eq_some_iff.1 ha).1
      exact ⟨s.agents[0], List.getElem?_eq_getElem (by omega)⟩
  obtain ⟨pac, hpac⟩ := hpac
  obtain ⟨c, m, hc, ht, hk, ⟨best, _, _, hm, _⟩, hat⟩ := (C57_directional hg hpac h qa qf).2 hne
  have hq0 : 0 ≤ (if g.scared > 0 then qf else qa) := by split <;> assumption
  have hq1 : (if g.scared > 0 then qf else qa) ≤ 1 := by split <;> assumption
  rw [hc]
  have hlen : c.keys.length ≠ 0 := by
    intro h0
    obtain ⟨a, ha⟩ := List.exists_mem_of_ne_nil _ hne
    have := (hk a).2 ha
    rw [List.length_eq_zero_iff.1 h0] at this; cases this
  have h0 : ∀ k, 0 ≤ c.at k := by
    intro k
    by_cases hkl : k ∈ legal
    · have hx : 0 ≤ (1 - if g.scared > 0 then qf else qa) / (legal.length : ℚ) := div_nonneg (by linarith) (Nat.cast_nonneg _)
      by_cases hp : Preferred g pac legal k
      · rw [(hat k hkl).1 hp]
        exact add_nonneg (div_nonneg hq0 (Nat.cast_nonneg _)) hx
      · rw [(hat k hkl).2 hp]; exact hx
    · rw [at_of_not_mem fun hc => hkl ((hk k).1 hc)]
  obtain ⟨a, h1, h2⟩ := (C57_sample_counter Dir.le_trans' Dir.le_total' Dir.le_antisymm' h0 (by rw [ht]; norm_num) (r := r) hr1.le).1
  refine ⟨a, (hk a).1 h1, ?_⟩
  unfold ghostAction; simp only [if_neg hlen]; exact h2

/-- Values of two actions in the outcome. -/
def distIs (r : Except PErr (Counter Dir)) (a b : Dir) (p q : ℚ) : Bool := match r with
  | .ok c => decide (Counter.at c a = p) && decide (Counter.at c b = q)
  | .error _ => false

/-- A corridor with Pacman at its west end and a ghost in the middle. -/
def corridorMiddle (t : ℕ) : GState := { corridorState (2, 1) t with
  agents := [⟨⟨cellAt (1, 1), .stop⟩, ⟨cellAt (1, 1), .stop⟩, true, 0⟩, ⟨⟨cellAt (2, 1), .stop⟩, ⟨cellAt (2, 1), .stop⟩, false, t⟩] }

/-- A ghost in the middle of a corridor: both directions are legal, Pacman is to the west; it approaches, or flees if it is scared. -/
example : distIs (directionalDist (4 / 5) (4 / 5) (corridorMiddle 0) 1) .east .west (1 / 10) (9 / 10) = true ∧
    distIs (directionalDist (4 / 5) (4 / 5) (corridorMiddle 5) 1) .east .west (9 / 10) (1 / 10) = true := by
  refine ⟨by decide +kernel, by decide +kernel⟩

/-! ### Keyboard -/

/-- **C57** The keyboard agent: with a legal action there is always an answer and it is legal. The stop key wins if stopping is legal; otherwise the last
in the order west, east, north, south among the legal directions whose key is pressed; without such a key the previous move is repeated while it is legal. -/
theorem C57_keyboard (key : Dir → Bool) (lastMove : Dir) (n : ℕ) {legal : List Dir} (hne : legal ≠ []) :
    (∃ a ∈ legal, keyboardAction key lastMove n legal = .ok a) ∧
    (key .stop = true → Dir.stop ∈ legal → keyboardAction key lastMove n legal = .ok .stop) ∧
    ((key .stop = false ∨ Dir.stop ∉ legal) →
      (∀ d, d ≠ .stop → key d = true → d ∈ legal → (∀ e ∈ ([.west, .east, .north, .south] : List Dir).dropWhile (fun x => x ≠ d) |>.tail, ¬ (key e = true ∧ e ∈ legal)) →
        keyboardAction key lastMove n legal = .ok d) ∧
      ((∀ d, d ≠ .stop → ¬ (key d = true ∧ d ∈ legal)) → lastMove ∈ legal → keyboardAction key lastMove n legal = .ok lastMove)) := by
  refine ⟨?_, ?_, ?_⟩
  · unfold keyboardAction
    dsimp only
    generalize (if key .stop ∧ Dir.stop ∈ legal then Dir.stop else if keyMove key legal = .stop ∧ lastMove ∈ legal then lastMove else keyMove key legal) = m
    by_cases hm : m ∈ legal
    · exact ⟨m, hm, by rw [if_pos hm]⟩
    · rw [if_neg hm]
      have : n % legal.length < legal.length := Nat.mod_lt _ (List.length_pos_iff.2 hne)
      rw [List.getElem?_eq_getElem this]
      exact ⟨_, List.getElem_mem this, rfl⟩
  · intro h1 h2
    unfold keyboardAction
    simp [h1, h2]
  · intro hstop
    have hs : ¬ (key .stop = true ∧ Dir.stop ∈ legal) := by
      rintro ⟨a, b⟩; rcases hstop with h | h
      · rw [h] at a; cases a
      · exact h b
    constructor
    · intro d hd hk hl hlast
      have hm : keyMove key legal = d := by
        unfold keyMove
        cases d with
        | north => simp at hlast; simp [hk, hl]; intro h1 h2; exact absurd h2 (hlast h1)
        | south => simp [hk, hl]
        | east => simp at hlast; simp [hk, hl]; grind
        | west => simp at hlast; simp [hk, hl]; grind
        | stop => exact absurd rfl hd
      unfold keyboardAction
      simp only [hm]
      rw [if_neg hs, if_neg (c := d = .stop ∧ _) (fun h => hd h.1), if_pos hl]
    · intro hno hlm
      have hm : keyMove key legal = .stop := by
        unfold keyMove
        dsimp only
        rw [if_neg (hno .south (by decide)), if_neg (hno .north (by decide)), if_neg (hno .east (by decide)), if_neg (hno .west (by decide))]
      unfold keyboardAction
      simp only [hm]
      rw [if_neg hs]
      simp [hlm]

/-! ### The demo game -/

/-- The agents of the demo (demo.py 35-36): a keyboard agent and random ghosts. `keys k`, `last k` and `rnd k` are the keys, the previous move
and the choice of the keyboard agent, `rs k` the random number drawn at turn `k`. -/
def demoAct (keys : ℕ → Dir → Bool) (last : ℕ → Dir) (rnd : ℕ → ℕ) (rs : ℕ → ℚ) (k i : ℕ) (obs : GState) : Except PErr Dir :=
  if i = 0 then match legalActions obs 0 with
    | .error e => .error e
    | .ok legal => keyboardAction (keys k) (last k) (rnd k) legal
  else ghostAction (randomDist obs i) (rs k)

/-- **C57** The demo never crashes: whatever keys are pressed and whatever random numbers are drawn, after any number of turns the game is still running or
was won or lost. -/
theorem C57_demo (keys : ℕ → Dir → Bool) (last : ℕ → Dir) (rnd : ℕ → ℕ) (rs : ℕ → ℚ) (hrs : ∀ k, rs k < 1) :
    ∃ l, Layout.ofText mediumClassic = .ok l ∧ ∀ (catchExc : Bool) (n : ℕ),
      let r := Run.loop (demoAct keys last rnd rs) catchExc (newGameAgents l 2) n 0 (Run.start l 2)
      (r.status = .running ∧ r.moveHistory.length = n) ∨ (r.status = .finished ∧ (r.state.win = true ∨ r.state.lose = true)) := by
  obtain ⟨h1, h2, h3⟩ := C55_demo
  obtain ⟨l, hl, h⟩ := C55_text h1 h2 h3 2
  refine ⟨l, hl, h _ ?_⟩
  intro k i obs legal hleg hne
  unfold demoAct
  by_cases hi : i = 0
  · subst hi
    rw [if_pos rfl, hleg]
    exact (C57_keyboard (keys k) (last k) (rnd k) hne).1
  · rw [if_neg hi]
    exact ((C57_random_ghost hleg (hrs k)).2 hne).1

end Verif.Pac
