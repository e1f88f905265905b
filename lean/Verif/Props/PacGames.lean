import Verif.Props.PacSession
import Verif.Props.PacLoad

/-!
# A session of games (C75, continued)
-/

set_option linter.unusedSectionVars false

namespace Verif.Pac

/-! ### The loop -/

/-- The file of one game. -/
def gameFile (game : ℕ → Run) (now : ℕ → Stamp) (i : ℕ) : Str × List (ℕ × Dir) := (recordName i (now i), (game i).moveHistory)

theorem playGames_append (hasText : Bool) (numTraining : ℤ) (record : Bool) (game : ℕ → Run) (now : ℕ → Stamp) :
    ∀ (l rest : List ℕ) (s : Session), (∀ i ∈ l, ((i : ℤ) < numTraining → hasText = true) ∧ ∀ e, (game i).status ≠ .raised e) →
      playGames hasText numTraining record game now (l ++ rest) s =
        playGames hasText numTraining record game now rest
          ⟨s.files ++ (if record then l.map (gameFile game now) else []), s.games ++ (l.filter fun (i : ℕ) => decide (numTraining ≤ (i : ℤ))).map game⟩ := by
  intro l
  induction l with
  | nil => intro rest s _; cases record <;> simp
  | cons i t ih =>
    intro rest s h
    obtain ⟨h1, h2⟩ := h i (by simp)
    have ht : ∀ j ∈ t, ((j : ℤ) < numTraining → hasText = true) ∧ ∀ e, (game j).status ≠ .raised e := fun j hj => h j (by simp [hj])
    rw [List.cons_append, playGames]
    have hq : (decide ((i : ℤ) < numTraining) && !hasText) = false := by
      by_cases hlt : (i : ℤ) < numTraining
      · rw [h1 hlt]; simp
      · simp [hlt]
    simp only [hq, Bool.false_eq_true, if_false]
    cases he : (game i).status with
    | raised e => exact absurd he (h2 e)
    | running | finished | crashed =>
      rw [ih rest _ ht]
      congr 1
      by_cases hlt : (i : ℤ) < numTraining
      · have hng : ¬ numTraining ≤ (i : ℤ) := by omega
        cases record <;> simp [hlt, hng, gameFile]
      · have hng : numTraining ≤ (i : ℤ) := by omega
        cases record <;> simp [hlt, hng, gameFile]

theorem range_filter_le (n : ℕ) (k : ℤ) : ((List.range n).filter fun (i : ℕ) => decide (k ≤ (i : ℤ))) = List.range' k.toNat (n - k.toNat) := by
  induction n with
  | zero => simp
  | succ n ih =>
    rw [List.range_succ, List.filter_append, ih]
    by_cases h : k ≤ (n : ℤ)
    · rw [List.filter_cons_of_pos (by simpa using h), List.filter_nil, show n + 1 - k.toNat = (n - k.toNat) + 1 by omega, List.range'_concat]
      congr 2
      omega
    · rw [List.filter_cons_of_neg (by simpa using h), List.filter_nil, show n + 1 - k.toNat = 0 by omega, show n - k.toNat = 0 by omega]
      rfl

theorem makeReport_ok {games : List Run} (h : games ≠ []) : ∃ r, makeReport games = .ok r := by
  unfold makeReport
  simp only [List.length_map]
  rw [if_neg (by simpa using h)]
  exact ⟨_, rfl⟩

/-- C75: `runGames`. No game is played when the first one is a training game and there is no text display. Otherwise an exception that leaves a game ends the session, with the earlier games recorded
and no report; without one every game is recorded, the games after the training ones are returned, and there is a report for them. Only a report about no game divides by zero. -/
theorem C75_games (hasText : Bool) (numGames numTraining : ℤ) (record : Bool) (game : ℕ → Run) (now : ℕ → Stamp) :
    (hasText = false → 0 < numTraining → 0 < numGames →
      runGames hasText numGames numTraining record game now = ([], .error .noModule)) ∧
    ((hasText = true ∨ numTraining ≤ 0) → ∀ (j : ℕ) e, (j : ℤ) < numGames → (∀ i < j, ∀ e, (game i).status ≠ .raised e) → (game j).status = .raised e →
      runGames hasText numGames numTraining record game now =
        (if record then (List.range j).map fun i => (recordName i (now i), (game i).moveHistory) else [], .error (.game e))) ∧
    ((hasText = true ∨ numTraining ≤ 0 ∨ numGames ≤ 0) → (∀ i : ℕ, (i : ℤ) < numGames → ∀ e, (game i).status ≠ .raised e) →
      (runGames hasText numGames numTraining record game now).1 =
        (if record then (List.range numGames.toNat).map fun i => (recordName i (now i), (game i).moveHistory) else []) ∧
      (numGames ≤ numTraining → (runGames hasText numGames numTraining record game now).2 = .ok (none, [])) ∧
      (numTraining < numGames → numGames ≤ 0 → (runGames hasText numGames numTraining record game now).2 = .error .zeroDiv) ∧
      (numTraining < numGames → 0 < numGames → ∃ r games, (runGames hasText numGames numTraining record game now).2 = .ok (some r, games) ∧
        games = (List.range' numTraining.toNat (numGames.toNat - numTraining.toNat)).map game ∧ makeReport games = .ok r)) := by
  refine ⟨fun ht h1 h2 => ?_, fun ht j e hj hb he => ?_, fun ht hb => ?_⟩
  · unfold runGames
    obtain ⟨n, hn⟩ : ∃ n, numGames.toNat = n + 1 := ⟨numGames.toNat - 1, by omega⟩
    rw [hn, List.range_succ_eq_map, playGames, ht]
    simp [h1]
  · have hsplit : List.range numGames.toNat = List.range j ++ j :: (List.range' (j + 1) (numGames.toNat - (j + 1))) := by
      rw [List.range_eq_range', List.range_eq_range', ← List.range'_succ, show numGames.toNat - (j + 1) + 1 = numGames.toNat - j by omega]
      have := List.range'_append_1 (s := 0) (m := j) (n := numGames.toNat - j)
      rw [Nat.zero_add] at this
      rw [this]
      congr 1
      omega
    have hall : ∀ i ∈ List.range j, ((i : ℤ) < numTraining → hasText = true) ∧ ∀ e, (game i).status ≠ .raised e := by
      intro i hi
      rw [List.mem_range] at hi
      refine ⟨fun hlt => ?_, hb i hi⟩
      rcases ht with ht | ht
      · exact ht
      · omega
    unfold runGames
    rw [hsplit, playGames_append _ _ _ _ _ _ _ _ hall, playGames]
    have hq : (decide ((j : ℤ) < numTraining) && !hasText) = false := by
      rcases ht with ht | ht
      · simp [ht]
      · have : ¬ (j : ℤ) < numTraining := by omega
        simp [this]
    simp only [hq, Bool.false_eq_true, if_false, he, List.nil_append]
    rfl
  · have hall : ∀ i ∈ List.range numGames.toNat, ((i : ℤ) < numTraining → hasText = true) ∧ ∀ e, (game i).status ≠ .raised e := by
      intro i hi
      rw [List.mem_range] at hi
      refine ⟨fun hlt => ?_, hb i (by omega)⟩
      rcases ht with ht | ht | ht
      · exact ht
      · omega
      · omega
    have hplay := playGames_append hasText numTraining record game now (List.range numGames.toNat) [] {} hall
    rw [List.append_nil, playGames, List.nil_append, List.nil_append, range_filter_le] at hplay
    unfold runGames
    rw [hplay]
    dsimp only
    by_cases hlt : numGames - numTraining > 0
    · rw [if_pos hlt]
      by_cases hz : numGames ≤ 0
      · have hnil : List.range' numTraining.toNat (numGames.toNat - numTraining.toNat) = [] := by
          rw [show numGames.toNat - numTraining.toNat = 0 by omega]; rfl
        have herr : makeReport ((List.range' numTraining.toNat (numGames.toNat - numTraining.toNat)).map game) = .error .zeroDiv := by
          rw [hnil]; rfl
        rw [herr]
        exact ⟨rfl, fun h => by omega, fun _ _ => rfl, fun _ h => by omega⟩
      · obtain ⟨r, hr⟩ := makeReport_ok (games := (List.range' numTraining.toNat (numGames.toNat - numTraining.toNat)).map game) (by
          intro h
          have := congrArg List.length h
          simp at this
          omega)
        rw [hr]
        exact ⟨rfl, fun h => by omega, fun _ h => by omega, fun _ _ => ⟨r, _, rfl, rfl, hr⟩⟩
    · rw [if_neg hlt]
      have hnil : List.range' numTraining.toNat (numGames.toNat - numTraining.toNat) = [] := by
        rw [show numGames.toNat - numTraining.toNat = 0 by omega]; rfl
      rw [hnil]
      exact ⟨rfl, fun _ => rfl, fun h => by omega, fun h => by omega⟩

/-- C75: a session divides by zero exactly if no game is asked for and the number of training games is smaller still. -/
theorem C75_zero (hasText : Bool) (numGames numTraining : ℤ) (record : Bool) (game : ℕ → Run) (now : ℕ → Stamp) :
    (runGames hasText numGames numTraining record game now).2 = .error .zeroDiv ↔ numTraining < numGames ∧ numGames ≤ 0 := by
  obtain ⟨h1, h2, h3⟩ := C75_games hasText numGames numTraining record game now
  by_cases hz : numGames ≤ 0
  · obtain ⟨-, h4, h5, -⟩ := h3 (Or.inr (Or.inr hz)) fun i hi => by omega
    by_cases hlt : numTraining < numGames
    · exact ⟨fun _ => ⟨hlt, hz⟩, fun _ => h5 hlt hz⟩
    · rw [h4 (by omega)]
      exact ⟨fun h => (by cases h), fun h => absurd h.1 hlt⟩
  · refine ⟨fun h => ?_, fun h => absurd h.2 hz⟩
    exfalso
    by_cases ht : hasText = true ∨ numTraining ≤ 0
    · by_cases hr : ∃ j : ℕ, (j : ℤ) < numGames ∧ ∃ e, (game j).status = .raised e
      · classical
        obtain ⟨hj, e, he⟩ := Nat.find_spec hr
        rw [h2 ht (Nat.find hr) e hj (fun i hi e he => Nat.find_min hr hi ⟨by omega, e, he⟩) he] at h
        cases h
      · push Not at hr
        obtain ⟨-, h4, -, h6⟩ := h3 (by tauto) hr
        by_cases hlt : numTraining < numGames
        · obtain ⟨r, games, hok, -⟩ := h6 hlt (by omega)
          rw [hok] at h
          cases h
        · rw [h4 (by omega)] at h
          cases h
    · push Not at ht
      rw [h1 (by simpa using ht.1) ht.2 (by omega)] at h
      cases h

/-! ### The report -/

/-- C75: the report agrees with the games: one score and one word for each, "Win" exactly for those won; the average and the rate are what they are called, the rate is between zero and one and the
average between the smallest and the largest score. -/
theorem C75_report {games : List Run} {r : Report} (h : makeReport games = .ok r) :
    r.scores = games.map (fun g => g.state.score) ∧ r.record.length = games.length ∧ r.total = games.length ∧
    (∀ (k : ℕ) (g : Run), games[k]? = some g → r.record[k]? = some (if g.state.win then "Win" else "Loss")) ∧
    r.wins = r.record.count "Win" ∧ r.total = r.wins + r.record.count "Loss" ∧
    r.average * r.total = ((r.scores.sum : ℤ) : ℚ) ∧ r.rate * r.total = r.wins ∧ 0 ≤ r.rate ∧ r.rate ≤ 1 ∧
    (∀ m : ℤ, (∀ g ∈ games, m ≤ g.state.score) → (m : ℚ) ≤ r.average) ∧ (∀ m : ℤ, (∀ g ∈ games, g.state.score ≤ m) → r.average ≤ m) := by
  unfold makeReport at h
  simp only [List.length_map] at h
  by_cases hz : games.length = 0
  · rw [if_pos hz] at h; cases h
  rw [if_neg hz] at h
  cases h
  have hpos : (0 : ℚ) < games.length := by exact_mod_cast Nat.pos_of_ne_zero hz
  have hcount : (games.map fun r => r.state.win).count true ≤ games.length := by
    have := List.count_le_length (a := true) (l := games.map fun r => r.state.win)
    simpa using this
  have hw : ∀ ws : List Bool, ws.count true = (ws.map fun b => if b then "Win" else "Loss").count "Win" ∧
      ws.length = ws.count true + (ws.map fun b => if b then "Win" else "Loss").count "Loss" := by
    intro ws
    induction ws with
    | nil => simp
    | cons b t ih => cases b <;> simp [List.count_cons] <;> omega
  have hbound : ∀ m : ℤ, (∀ g ∈ games, m ≤ g.state.score) → m * (games.length : ℤ) ≤ (games.map fun g => g.state.score).sum := by
    intro m hm
    have := List.card_nsmul_le_sum (games.map fun g => g.state.score) m (by simpa using hm)
    simpa [mul_comm] using this
  have hbound' : ∀ m : ℤ, (∀ g ∈ games, g.state.score ≤ m) → (games.map fun g => g.state.score).sum ≤ m * (games.length : ℤ) := by
    intro m hm
    have := List.sum_le_card_nsmul (games.map fun g => g.state.score) m (by simpa using hm)
    simpa [mul_comm] using this
  refine ⟨rfl, by simp, rfl, ?_, (hw _).1, ?_, ?_, ?_, ?_, ?_, ?_, ?_⟩
  · intro k g hg
    simp [List.getElem?_map, hg]
  · have := (hw (games.map fun r => r.state.win)).2
    simpa using this
  · dsimp only; field_simp
  · dsimp only; field_simp
  · dsimp only; positivity
  · dsimp only
    rw [div_le_one hpos]
    exact_mod_cast hcount
  · intro m hm
    dsimp only
    rw [le_div_iff₀ hpos]
    exact_mod_cast hbound m hm
  · intro m hm
    dsimp only
    rw [div_le_iff₀ hpos]
    exact_mod_cast hbound' m hm

/-- C75: what a session reports and records. If every game came to an end, then each reported game that was not crashed is won or lost, and replaying its record from the start gives the reported score
and result; a crashed game is reported as a loss though it was not lost. -/
theorem C75_results {l : Layout} {ghostAgents : ℕ} (h0 : Placed (GState.init l ghostAgents)) {catchExc : Bool} {hasText : Bool} {numGames numTraining : ℤ} {game : ℕ → Run}
    {now : ℕ → Stamp} (hend : ∀ i : ℕ, (i : ℤ) < numGames → Ended l ghostAgents catchExc (game i)) {files : List (Str × List (ℕ × Dir))} {r : Report} {games : List Run}
    (h : runGames hasText numGames numTraining true game now = (files, .ok (some r, games))) :
    files.length = numGames.toNat ∧ games.length + numTraining.toNat = numGames.toNat ∧
    ∀ k < games.length, ∃ name moves, files[numTraining.toNat + k]? = some (name, moves) ∧
      ((∃ s, playMoves (GState.init l ghostAgents) moves = .ok s ∧ r.scores[k]? = some s.score ∧ r.record[k]? = some (if s.win then "Win" else "Loss") ∧ (s.win = true ∨ s.lose = true)) ∨
       (catchExc = true ∧ r.record[k]? = some "Loss" ∧ ∃ g, games[k]? = some g ∧ g.status = .crashed ∧ g.state.Open)) := by
  obtain ⟨h1, h2, h3⟩ := C75_games hasText numGames numTraining true game now
  have hpos : 0 < numGames ∧ numTraining < numGames := by
    by_contra hcon
    by_cases hlt : numTraining < numGames
    · have := (C75_zero hasText numGames numTraining true game now).2 ⟨hlt, by omega⟩
      rw [h] at this
      cases this
    · unfold runGames at h
      split at h
      · cases h
      · rw [if_neg (by omega)] at h
        cases h
  have ht : hasText = true ∨ numTraining ≤ 0 := by
    by_contra hcon
    push Not at hcon
    rw [h1 (by simpa using hcon.1) hcon.2 hpos.1] at h
    cases h
  have hb : ∀ i : ℕ, (i : ℤ) < numGames → ∀ e, (game i).status ≠ .raised e := by
    classical
    by_contra hr
    push Not at hr
    obtain ⟨hj, e, he⟩ := Nat.find_spec hr
    rw [h2 ht (Nat.find hr) e hj (fun i hi e he => Nat.find_min hr hi ⟨by omega, e, he⟩) he] at h
    cases h
  obtain ⟨h4, -, -, h5⟩ := h3 (by tauto) hb
  obtain ⟨r', games', hok, hgames, hrep⟩ := h5 hpos.2 hpos.1
  rw [h] at h4 hok
  cases hok
  dsimp only at h4
  rw [if_pos rfl] at h4
  have hlen : games.length = numGames.toNat - numTraining.toNat := by rw [hgames]; simp
  refine ⟨by rw [h4]; simp, by omega, fun k hk => ?_⟩
  have hi : ((numTraining.toNat + k : ℕ) : ℤ) < numGames := by omega
  have hg : games[k]? = some (game (numTraining.toNat + k)) := by
    rw [hgames, List.getElem?_map, List.getElem?_range' (by omega)]
    simp
  obtain ⟨hsc, -, -, hrec, -⟩ := C75_report hrep
  refine ⟨recordName (numTraining.toNat + k) (now (numTraining.toNat + k)), (game (numTraining.toNat + k)).moveHistory, ?_, ?_⟩
  · rw [h4, List.getElem?_map, List.getElem?_range (by omega)]
    rfl
  · have hrk := hrec k _ hg
    have hsk : r.scores[k]? = some (game (numTraining.toNat + k)).state.score := by rw [hsc, List.getElem?_map, hg]; rfl
    obtain ⟨act, n, hrun, hst⟩ := hend _ hi
    have hinv := C55_run h0 act catchExc n
    rw [← hrun] at hinv
    cases hs : (game (numTraining.toNat + k)).status with
    | running => exact absurd hs hst
    | finished =>
      obtain ⟨hp, -, hw⟩ := hinv.finished hs
      exact Or.inl ⟨_, hp, hsk, hrk, hw⟩
    | crashed =>
      obtain ⟨hopen, -⟩ := hinv.failed (Or.inl hs)
      refine Or.inr ⟨hinv.caught.1 hs, ?_, _, hg, hs, hopen⟩
      rw [hrk, hopen.1]
      rfl
    | raised e => exact absurd hs (hb _ hi e)

/-! ### The names of the recorded games -/

theorem dash_natStr (n : ℕ) : '-' ∉ natStr n := minus_notMem_toDigits n

theorem natStr_inj {n m : ℕ} (h : natStr n = natStr m) : n = m := toDigits_ten_inj h

/-- C75: two recorded games have the same name exactly if day, hour, minute and second agree and the digits of number and month, written without anything between them, do. In one month the names of
different games thus differ, but game 1 of November may have the name of game 11 of January, and then one record takes the place of the other. -/
theorem C75_names (i j : ℕ) (t u : Stamp) :
    (recordName i t = recordName j u ↔
      natStr (i + 1) ++ natStr t.month = natStr (j + 1) ++ natStr u.month ∧ t.day = u.day ∧ t.hour = u.hour ∧ t.minute = u.minute ∧ t.second = u.second) ∧
    (t.month = u.month → recordName i t = recordName j u → i = j ∧ t = u) := by
  have hshape : ∀ i (t : Stamp), recordName i t = "recorded-game-".toList ++ ((natStr (i + 1) ++ natStr t.month) ++ '-' :: (natStr t.day ++ '-' :: (natStr t.hour ++
      '-' :: (natStr t.minute ++ '-' :: natStr t.second)))) := by
    intro i t
    unfold recordName
    rw [List.append_assoc]
    congr 1
    rw [List.append_assoc]
    congr 1
    simp [List.intercalate, List.intersperse]
  have hiff : recordName i t = recordName j u ↔
      natStr (i + 1) ++ natStr t.month = natStr (j + 1) ++ natStr u.month ∧ t.day = u.day ∧ t.hour = u.hour ∧ t.minute = u.minute ∧ t.second = u.second := by
    rw [hshape, hshape]
    constructor
    · intro h
      have h := List.append_cancel_left h
      obtain ⟨e1, h⟩ := append_sep_inj (by simp [dash_natStr]) (by simp [dash_natStr]) h
      obtain ⟨e2, h⟩ := append_sep_inj (dash_natStr _) (dash_natStr _) h
      obtain ⟨e3, h⟩ := append_sep_inj (dash_natStr _) (dash_natStr _) h
      obtain ⟨e4, h⟩ := append_sep_inj (dash_natStr _) (dash_natStr _) h
      exact ⟨e1, natStr_inj e2, natStr_inj e3, natStr_inj e4, natStr_inj h⟩
    · rintro ⟨h1, h2, h3, h4, h5⟩
      rw [h1, h2, h3, h4, h5]
  refine ⟨hiff, fun hm h => ?_⟩
  obtain ⟨h1, h2, h3, h4, h5⟩ := hiff.1 h
  rw [hm] at h1
  have := natStr_inj (List.append_cancel_right h1)
  refine ⟨by omega, ?_⟩
  cases t
  cases u
  simp_all

/-- The clash. -/
example : recordName 0 ⟨11, 5, 10, 20, 30⟩ = recordName 10 ⟨1, 5, 10, 20, 30⟩ := by decide

example : recordName 0 ⟨11, 5, 10, 20, 30⟩ = "recorded-game-111-5-10-20-30".toList := by decide

/-! ### The hypotheses can be met -/

/-- The files of `demo/`. -/
def demoFiles : List Str := ["game.py", "ghostAgents.py", "graphicsDisplay.py", "graphicsUtils.py", "keyboardAgents.py", "layout.py", "layouts", "pacman.py", "util.py"].map String.toList

/-- `demo/` with one layout. -/
noncomputable def demoWorld (content : Str) : World where
  files := disk content
  cwd := inside
  pythonPath := none
  isDir d := decide (d = ".".toList)
  listDir _ := demoFiles
  imports m := if m = "keyboardAgents".toList then some keyboardNames else if m = "ghostAgents".toList then some ghostNames else none
  callable _ n c := match c with
    | .keywords d => @decide (TakesKeywords n d.keys) (Classical.propDecidable _)
    | .number _ => @decide (TakesNumber n) (Classical.propDecidable _)
  isInt _ := false

theorem demoWorld_inDemo (content : Str) : InDemo (demoWorld content) where
  here := by unfold demoWorld; dsimp only; decide
  files := by
    have : "keyboardAgents.py".toList ∈ demoFiles ∧ "ghostAgents.py".toList ∈ demoFiles := by decide
    exact this
  only := by
    intro d f _ hf hs
    have : ∀ f ∈ demoFiles,
        "gents.py".toList <:+ f → f = "keyboardAgents.py".toList ∨ f = "ghostAgents.py".toList := by decide
    exact this f hf hs
  keyboard := by
    unfold demoWorld
    dsimp only
    rw [if_pos rfl]
  ghosts := by
    unfold demoWorld
    dsimp only
    rw [if_neg (by decide), if_pos rfl]
  noText := by
    unfold demoWorld
    dsimp only
    rw [if_neg (by decide), if_neg (by decide)]
  keywords := fun _ _ _ => @decide_eq_true_iff _ (Classical.propDecidable _)
  number := fun _ _ _ => @decide_eq_true_iff _ (Classical.propDecidable _)

/-- The program without options, but for the name of the layout, is accepted; with training games or without graphics it is not. -/
example : ∃ content, (∃ a, readCommand (demoWorld content) { layout := "x".toList } = .ok a) ∧
    ¬ (∃ a, readCommand (demoWorld content) { layout := "x".toList, numTraining := 1 } = .ok a) ∧
    ¬ (∃ a, readCommand (demoWorld content) { layout := "x".toList, textGraphics := true } = .ok a) := by
  obtain ⟨l, hl, _⟩ := C58_demo
  have hlay : getLayout (disk l.str) inside "x".toList = (inside, .ok (some l)) := by
    have : ∀ r ∈ mediumClassic.getLast?, r ≠ [] := by decide +kernel
    exact C74_roundtrip hl mediumClassic_tidy (fun r hr => this r hr) inside_places (inside_before _) (Or.inl (if_pos ⟨rfl, rfl⟩))
  refine ⟨l.str, ?_, ?_, ?_⟩
  · rw [(C75_command (demoWorld_inDemo l.str) _).1]
    refine ⟨⟨l, ?_⟩, rfl, rfl, le_refl _, ⟨Dict.empty, rfl, [], ["index".toList], ?_, by simp, by simp [Dict.empty, Dict.keys]⟩, ?_, Or.inl ⟨["index".toList], [], ?_, by simp, by simp⟩⟩
    · show (getLayout (disk l.str) inside "x".toList).2 = _
      rw [hlay]
    · decide
    · exact Or.inr (by decide)
    · decide
  · rw [(C75_command (demoWorld_inDemo l.str) _).1]
    rintro ⟨-, -, -, h, -⟩
    exact absurd h (by decide)
  · rw [(C75_command (demoWorld_inDemo l.str) _).1]
    rintro ⟨-, h, -⟩
    cases h

/-- A corridor with one dot. -/
def oneDot : List (List Char) := ["%%%%".toList, "%P.%".toList, "%%%%".toList]

theorem oneDot_bordered : TextBordered oneDot 4 := by
  refine ⟨⟨by decide +kernel, by decide +kernel⟩, ?_⟩
  have : ∀ x < 4, ∀ y < oneDot.length, (x = 0 ∨ x + 1 = 4 ∨ y = 0 ∨ y + 1 = oneDot.length) → charAt oneDot (x, y) = some '%' := by decide +kernel
  exact fun x y hx hy h => this x hx y hy h

/-- The game in the corridor with an agent that goes east ends, is won at once, and gives 509 points; the session of two such games reports two wins. -/
example : ∃ l, Layout.ofText oneDot = .ok l ∧ Placed (GState.init l 0) ∧
    let game := fun (_ : ℕ) => Run.loop (fun _ _ _ => .ok .east) false (newGameAgents l 0) 1 0 (Run.start l 0)
    (∀ i : ℕ, (i : ℤ) < 2 → Ended l 0 false (game i)) ∧
    ∃ files r games, runGames false 2 0 true game (fun _ => ⟨1, 1, 1, 1, 1⟩) = (files, .ok (some r, games)) ∧ r.record = ["Win", "Win"] ∧ r.scores = [509, 509] := by
  obtain ⟨l, hl, hpl, -⟩ := C58_initial oneDot_bordered ⟨1, 1, by decide, by decide, by decide⟩ 0
  have hfin : (match Layout.ofText oneDot with
      | .ok l =>
        let r := Run.loop (fun _ _ _ => .ok .east) false (newGameAgents l 0) 1 0 (Run.start l 0)
        decide (r.status = .finished) && r.state.win && decide (r.state.score = 509)
      | .error _ => false) = true := by decide +kernel
  rw [hl] at hfin
  simp only [Bool.and_eq_true, decide_eq_true_eq] at hfin
  obtain ⟨⟨h1, h2⟩, h3⟩ := hfin
  refine ⟨l, hl, hpl, ?_⟩
  intro game
  have hg : ∀ i, (game i).status = .finished ∧ (game i).state.win = true ∧ (game i).state.score = 509 := fun i => ⟨h1, h2, h3⟩
  refine ⟨fun i _ => ⟨_, 1, rfl, by rw [(hg i).1]; simp⟩, ?_⟩
  obtain ⟨-, -, h⟩ := C75_games false 2 0 true game (fun _ => ⟨1, 1, 1, 1, 1⟩)
  obtain ⟨-, -, -, h⟩ := h (Or.inr (Or.inl (le_refl _))) (fun i _ e he => by rw [(hg i).1] at he; cases he)
  obtain ⟨r, games, hok, hgames, hrep⟩ := h (by decide) (by decide)
  have hgs : games = [game 0, game 1] := by rw [hgames]; rfl
  obtain ⟨hs, -⟩ := C75_report hrep
  refine ⟨(runGames false 2 0 true game (fun _ => ⟨1, 1, 1, 1, 1⟩)).1, r, games, Prod.ext rfl hok, ?_, ?_⟩
  · rw [hgs] at hrep
    unfold makeReport at hrep
    simp only [List.map_cons, List.map_nil, (hg 0).2.1, (hg 1).2.1] at hrep
    cases hrep
    rfl
  · rw [hs, hgs]
    simp [(hg 0).2.2, (hg 1).2.2]

end Verif.Pac
