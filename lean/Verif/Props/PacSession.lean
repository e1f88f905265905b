import Verif.Spec.PacSession
import Verif.Props.PacRun
import Verif.Props.Drawing
import Verif.Props.Text

/-!
# The command line and a session of games (C75)
-/

set_option linter.unusedSectionVars false

namespace Verif.Pac

/-! ### Agent arguments -/

theorem splitBy_ne (c : Char) (s : Str) : splitBy c s ≠ [] := by
  cases s with
  | nil => simp [splitBy]
  | cons x t =>
    unfold splitBy
    split
    · simp
    · split <;> simp

theorem splitBy_none {c : Char} {s : Str} (h : c ∉ s) : splitBy c s = [s] := by
  induction s with
  | nil => rfl
  | cons x t ih =>
    simp only [List.mem_cons, not_or] at h
    unfold splitBy
    rw [if_neg (fun hx => h.1 hx.symm), ih h.2]

theorem splitBy_append {c : Char} {p : Str} (h : c ∉ p) (s : Str) : splitBy c (p ++ c :: s) = p :: splitBy c s := by
  induction p with
  | nil => simp [splitBy]
  | cons x t ih =>
    simp only [List.mem_cons, not_or] at h
    rw [List.cons_append, splitBy, if_neg (fun hx => h.1 hx.symm), ih h.2]

theorem splitBy_intercalate {c : Char} : ∀ {ps : List Str}, ps ≠ [] → (∀ p ∈ ps, c ∉ p) → splitBy c ([c].intercalate ps) = ps := by
  intro ps
  induction ps with
  | nil => intro h; exact absurd rfl h
  | cons p t ih =>
    intro _ h
    cases t with
    | nil => simpa using splitBy_none (h p (by simp))
    | cons q t =>
      rw [show [c].intercalate (p :: q :: t) = p ++ c :: [c].intercalate (q :: t) by simp [List.intercalate, List.intersperse],
        splitBy_append (h p (by simp)), ih (by simp) fun r hr => h r (by simp [hr])]

theorem splitBy_spec (c : Char) (s : Str) : [c].intercalate (splitBy c s) = s ∧ ∀ p ∈ splitBy c s, c ∉ p := by
  induction s with
  | nil => simp [splitBy]
  | cons x t ih =>
    unfold splitBy
    by_cases hx : x = c
    · rw [if_pos hx]
      have hne := splitBy_ne c t
      cases hs : splitBy c t with
      | nil => exact absurd hs hne
      | cons w ws =>
        rw [hs] at ih
        constructor
        · rw [show [c].intercalate ([] :: w :: ws) = c :: [c].intercalate (w :: ws) by simp [List.intercalate, List.intersperse], ih.1, hx]
        · intro p hp
          rcases List.mem_cons.1 hp with rfl | hp
          · simp
          · exact ih.2 p hp
    · rw [if_neg hx]
      cases hs : splitBy c t with
      | nil => exact absurd hs (splitBy_ne c t)
      | cons w ws =>
        rw [hs] at ih
        dsimp only
        constructor
        · rw [show [c].intercalate ((x :: w) :: ws) = x :: [c].intercalate (w :: ws) by cases ws <;> simp [List.intercalate, List.intersperse], ih.1]
        · intro p hp
          rcases List.mem_cons.1 hp with rfl | hp
          · simp only [List.mem_cons, not_or]
            exact ⟨fun h => hx h.symm, ih.2 w (by simp)⟩
          · exact ih.2 p (by simp [hp])

theorem length_splitBy (c : Char) (s : Str) : (splitBy c s).length = s.count c + 1 := by
  induction s with
  | nil => rfl
  | cons x t ih =>
    rw [splitBy]
    by_cases hx : x = c
    · rw [if_pos hx, List.length_cons, ih, hx, List.count_cons_self]
    · rw [if_neg hx, List.count_cons_of_ne hx]
      cases hs : splitBy c t with
      | nil => exact absurd hs (splitBy_ne c t)
      | cons w ws => rw [← ih, hs]; simp

theorem append_sep_inj {c : Char} : ∀ {a b s t : Str}, c ∉ a → c ∉ b → a ++ c :: s = b ++ c :: t → a = b ∧ s = t := by
  intro a
  induction a with
  | nil =>
    intro b s t _ hb h
    cases b with
    | nil => simpa using h
    | cons x b =>
      simp only [List.nil_append, List.cons_append, List.cons.injEq] at h
      exact absurd (by rw [h.1]; simp) hb
  | cons x a ih =>
    intro b s t ha hb h
    cases b with
    | nil =>
      simp only [List.nil_append, List.cons_append, List.cons.injEq] at h
      exact absurd (by rw [h.1]; simp) ha
    | cons y b =>
      simp only [List.cons_append, List.cons.injEq] at h
      simp only [List.mem_cons, not_or] at ha hb
      obtain ⟨h1, h2⟩ := ih ha.2 hb.2 h.2
      exact ⟨by rw [h.1, h1], h2⟩

/-- A piece is refused exactly when it has the sign `=` twice, and otherwise says what is read. -/
theorem parsePiece_spec (p : Str) : (2 ≤ p.count '=' → parsePiece p = .error .value) ∧
    (p.count '=' < 2 → ∃ k v, parsePiece p = .ok (k, v) ∧ ∀ k' v', Says p k' v' ↔ k' = k ∧ v' = v) := by
  have hlen := length_splitBy '=' p
  obtain ⟨hj, hno⟩ := splitBy_spec '=' p
  unfold parsePiece
  by_cases h : '=' ∈ p
  · rw [if_pos h]
    have h1 : 1 ≤ p.count '=' := List.one_le_count_iff.2 h
    constructor
    · intro h2
      split
      · rename_i hs
        rw [hs] at hlen
        simp at hlen
        omega
      · rfl
    · intro h2
      match hs : splitBy '=' p with
      | [] => exact absurd hs (splitBy_ne _ _)
      | [a] => rw [hs] at hlen; simp at hlen; omega
      | [k, v] =>
        rw [hs] at hj hno
        have hp : p = k ++ '=' :: v := by rw [← hj]; simp [List.intercalate, List.intersperse]
        have hk := hno k (by simp)
        have hv := hno v (by simp)
        refine ⟨k, .text v, rfl, fun k' v' => ⟨?_, ?_⟩⟩
        · rintro (⟨t, hp', rfl, hk', -⟩ | ⟨rfl, hk', -⟩)
          · obtain ⟨rfl, rfl⟩ := append_sep_inj hk hk' (hp.symm.trans hp')
            exact ⟨rfl, rfl⟩
          · exact absurd h hk'
        · rintro ⟨rfl, rfl⟩
          exact Or.inl ⟨v, hp, rfl, hk, hv⟩
      | a :: b :: c :: t => rw [hs] at hlen; simp at hlen; omega
  · rw [if_neg h]
    have h0 : p.count '=' = 0 := List.count_eq_zero.2 h
    refine ⟨fun h2 => by omega, fun _ => ⟨p, .num 1, rfl, fun k' v' => ⟨?_, ?_⟩⟩⟩
    · rintro (⟨t, rfl, -⟩ | ⟨rfl, -, rfl⟩)
      · simp at h
      · exact ⟨rfl, rfl⟩
    · rintro ⟨rfl, rfl⟩
      exact Or.inr ⟨rfl, h, rfl⟩

theorem parsePieces_error : ∀ (ps : List Str) (d : Dict Str ArgVal), (∃ p ∈ ps, 2 ≤ p.count '=') → parsePieces ps d = .error .value := by
  intro ps
  induction ps with
  | nil => rintro d ⟨p, hp, -⟩; simp at hp
  | cons q t ih =>
    rintro d ⟨p, hp, h2⟩
    rw [parsePieces]
    by_cases hq : 2 ≤ q.count '='
    · rw [(parsePiece_spec q).1 hq]
    · obtain ⟨k, v, hk, -⟩ := (parsePiece_spec q).2 (by omega)
      rw [hk]
      refine ih _ ⟨p, ?_, h2⟩
      rcases List.mem_cons.1 hp with rfl | hp
      · exact absurd h2 hq
      · exact hp

theorem parsePieces_ok : ∀ (ps : List Str) (d : Dict Str ArgVal), (∀ p ∈ ps, p.count '=' < 2) → ∃ d', parsePieces ps d = .ok d' ∧
    ∀ k v, d'.get? k = some v ↔ (∃ a p b, ps = a ++ p :: b ∧ Says p k v ∧ ∀ q ∈ b, ¬ ∃ u, Says q k u) ∨ (d.get? k = some v ∧ ∀ q ∈ ps, ¬ ∃ u, Says q k u) := by
  intro ps
  induction ps with
  | nil => intro d _; exact ⟨d, rfl, fun k v => by simp⟩
  | cons q t ih =>
    intro d h
    obtain ⟨k0, v0, hq, hs⟩ := (parsePiece_spec q).2 (h q (by simp))
    obtain ⟨d', hd', hget⟩ := ih (d.set k0 v0) fun p hp => h p (by simp [hp])
    refine ⟨d', by rw [parsePieces, hq]; exact hd', fun k v => ?_⟩
    rw [hget]
    constructor
    · rintro (⟨a, p, b, rfl, h1, h2⟩ | ⟨h1, h2⟩)
      · exact Or.inl ⟨q :: a, p, b, rfl, h1, h2⟩
      · rw [Dict.get?_set] at h1
        split at h1
        · rename_i hk
          cases h1
          exact Or.inl ⟨[], q, t, rfl, (hs _ _).2 ⟨hk.symm, rfl⟩, h2⟩
        · rename_i hk
          refine Or.inr ⟨h1, fun p hp => ?_⟩
          rcases List.mem_cons.1 hp with rfl | hp
          · rintro ⟨u, hu⟩
            exact hk ((hs _ _).1 hu).1.symm
          · exact h2 p hp
    · rintro (⟨a, p, b, hps, h1, h2⟩ | ⟨h1, h2⟩)
      · cases a with
        | nil =>
          simp only [List.nil_append, List.cons.injEq] at hps
          obtain ⟨rfl, rfl⟩ := hps
          obtain ⟨rfl, rfl⟩ := (hs _ _).1 h1
          exact Or.inr ⟨by simp, h2⟩
        | cons x a =>
          simp only [List.cons_append, List.cons.injEq] at hps
          obtain ⟨rfl, rfl⟩ := hps
          exact Or.inl ⟨a, p, b, rfl, h1, h2⟩
      · refine Or.inr ⟨?_, fun p hp => h2 p (by simp [hp])⟩
        rw [Dict.get?_set, if_neg, h1]
        rintro rfl
        exact h2 q (by simp) ⟨v0, (hs _ _).2 ⟨rfl, rfl⟩⟩

/-- C75: `parseAgentArgs`. Every text is a list of pieces separated by commas in one way. It is refused, with `ValueError`, exactly when a piece has more than one `=`; otherwise the last piece
that mentions a name decides its value. -/
theorem C75_parse : parseAgentArgs none = .ok Dict.empty ∧
    (∀ s : Str, ∃! ps : List Str, ps ≠ [] ∧ (∀ p ∈ ps, ',' ∉ p) ∧ [','].intercalate ps = s) ∧
    ∀ ps : List Str, ps ≠ [] → (∀ p ∈ ps, ',' ∉ p) →
      ((∃ p ∈ ps, 2 ≤ p.count '=') → parseAgentArgs (some ([','].intercalate ps)) = .error .value) ∧
      ((∀ p ∈ ps, p.count '=' < 2) → ∃ d, parseAgentArgs (some ([','].intercalate ps)) = .ok d ∧
        ∀ k v, d.get? k = some v ↔ ∃ a p b, ps = a ++ p :: b ∧ Says p k v ∧ ∀ q ∈ b, ¬ ∃ u, Says q k u) := by
  refine ⟨rfl, fun s => ?_, fun ps hne hno => ⟨fun h => ?_, fun h => ?_⟩⟩
  · obtain ⟨h1, h2⟩ := splitBy_spec ',' s
    refine ⟨splitBy ',' s, ⟨splitBy_ne _ _, h2, h1⟩, ?_⟩
    rintro ps ⟨h3, h4, rfl⟩
    exact (splitBy_intercalate h3 h4).symm
  · unfold parseAgentArgs
    dsimp only
    rw [splitBy_intercalate hne hno]
    exact parsePieces_error ps _ h
  · unfold parseAgentArgs
    dsimp only
    rw [splitBy_intercalate hne hno]
    obtain ⟨d, h1, h2⟩ := parsePieces_ok ps Dict.empty h
    exact ⟨d, h1, fun k v => by rw [h2]; simp⟩

/-- Non-vacuity: the last of two values for a name, and a mere name. -/
example : (∀ p ∈ ["a=1", "b", "a=2"].map String.toList, ',' ∉ p) ∧ (∀ p ∈ ["a=1", "b", "a=2"].map String.toList, p.count '=' < 2) ∧
    Says "a=2".toList ['a'] (.text ['2']) ∧ Says ['b'] ['b'] (.num 1) :=
  ⟨by decide, by decide, Or.inl ⟨['2'], rfl, rfl, by decide, by decide⟩, Or.inr ⟨rfl, by decide, rfl⟩⟩

/-! ### Loading agents -/

theorem fromModules_none (w : World) (name : Str) (ng : Bool) : ∀ (l : List Str), (∀ f ∈ l, ¬ w.Has name f) → w.fromModules name ng l = none := by
  intro l
  induction l with
  | nil => intro _; rfl
  | cons f t ih =>
    intro h
    rw [World.fromModules]
    have hf := h f (by simp)
    split
    · exact ih fun g hg => h g (by simp [hg])
    · rename_i names hn
      rw [if_neg fun hm => hf ⟨names, hn, hm⟩]
      exact ih fun g hg => h g (by simp [hg])

theorem fromModules_some (w : World) (name : Str) (ng : Bool) : ∀ (a : List Str) (f : Str) (b : List Str), (∀ g ∈ a, ¬ w.Has name g) → w.Has name f →
    w.fromModules name ng (a ++ f :: b) =
      some (if ng = true ∧ f = "keyboardAgents.py".toList then .error .keyboard else .ok (f.take (f.length - 3), name)) := by
  intro a
  induction a with
  | nil =>
    rintro f b - ⟨names, h1, h2⟩
    rw [List.nil_append, World.fromModules, h1]
    dsimp only
    rw [if_pos h2]
    generalize "keyboardAgents.py".toList = kb
    by_cases hc : ng = true ∧ f = kb
    · rw [if_pos (by simpa using hc), if_pos hc]
    · rw [if_neg (by simpa using hc), if_neg hc]
  | cons g t ih =>
    intro f b h hf
    rw [List.cons_append, World.fromModules]
    have hg := h g (by simp)
    split
    · exact ih f b (fun x hx => h x (by simp [hx])) hf
    · rename_i names hn
      rw [if_neg fun hm => hg ⟨names, hn, hm⟩]
      exact ih f b (fun x hx => h x (by simp [hx])) hf

theorem suffix_filter (l : List Str) : (l.filter fun f => "gents.py".toList.isSuffixOf f) = l.filter fun f => decide ("gents.py".toList <:+ f) := by
  congr 1
  funext f
  rw [Bool.eq_iff_iff, List.isSuffixOf_iff_suffix, decide_eq_true_eq]

/-- The file whose agents need graphics. -/
theorem load_step (w : World) (name : Str) (ng : Bool) (d : Str) (t : List Str) (hd : w.isDir d = true) :
    w.fromDirs name ng (d :: t) = match w.fromModules name ng ((w.listDir d).filter fun f => decide ("gents.py".toList <:+ f)) with
      | some r => r
      | none => w.fromDirs name ng t := by
  rw [World.fromDirs, if_pos hd, suffix_filter]
  cases w.fromModules name ng ((w.listDir d).filter fun f => decide ("gents.py".toList <:+ f)) <;> rfl

theorem first_has {α : Type*} (P : α → Prop) (l : List α) (h : ∃ f ∈ l, P f) : ∃ a f b, l = a ++ f :: b ∧ (∀ g ∈ a, ¬ P g) ∧ P f := by
  induction l with
  | nil => obtain ⟨f, hf, -⟩ := h; simp at hf
  | cons g l ihl =>
    by_cases hg : P g
    · exact ⟨[], g, l, rfl, by simp, hg⟩
    · obtain ⟨f, hf, hfh⟩ := h
      rcases List.mem_cons.1 hf with rfl | hf
      · exact absurd hfh hg
      · obtain ⟨a, f, b, rfl, h1, h2⟩ := ihl ⟨f, hf, hfh⟩
        refine ⟨g :: a, f, b, rfl, ?_, h2⟩
        intro x hx
        rcases List.mem_cons.1 hx with rfl | hx
        · exact hg
        · exact h1 x hx

theorem first_unique {α : Type*} {P : α → Prop} {a b a' b' : List α} {f f' : α} (h : a ++ f :: b = a' ++ f' :: b') (ha : ∀ g ∈ a, ¬ P g) (hf : P f)
    (ha' : ∀ g ∈ a', ¬ P g) (hf' : P f') : f = f' := by
  rcases List.append_eq_append_iff.1 h with ⟨u, h1, h2⟩ | ⟨u, h1, h2⟩
  · cases u with
    | nil => simp only [List.nil_append, List.cons.injEq] at h2; exact h2.1
    | cons x u =>
      simp only [List.cons_append, List.cons.injEq] at h2
      exact absurd hf (ha' f (by rw [h1, h2.1]; simp))
  · cases u with
    | nil => simp only [List.nil_append, List.cons.injEq] at h2; exact h2.1.symm
    | cons x u =>
      simp only [List.cons_append, List.cons.injEq] at h2
      exact absurd hf' (ha f' (by rw [h1, h2.1]; simp))

theorem fromDirs_spec (w : World) (name : Str) (ng : Bool) : ∀ (ds : List Str),
    let c := (ds.filter fun d => w.isDir d).flatMap fun d => (w.listDir d).filter fun f => decide ("gents.py".toList <:+ f)
    ((∀ f ∈ c, ¬ w.Has name f) → w.fromDirs name ng ds = .error .noAgent) ∧
    ∀ a f b, c = a ++ f :: b → (∀ g ∈ a, ¬ w.Has name g) → w.Has name f →
      w.fromDirs name ng ds = if ng = true ∧ f = "keyboardAgents.py".toList then .error .keyboard else .ok (f.take (f.length - 3), name) := by
  intro ds
  induction ds with
  | nil => exact ⟨fun _ => rfl, fun a f b h => by simp at h⟩
  | cons d t ih =>
    intro c
    by_cases hd : w.isDir d = true
    · have hstep := load_step w name ng d t hd
      have hc : c = ((w.listDir d).filter fun f => decide ("gents.py".toList <:+ f)) ++
          (t.filter fun d => w.isDir d).flatMap fun d => (w.listDir d).filter fun f => decide ("gents.py".toList <:+ f) := by
        simp only [c, List.filter_cons, hd, if_true, List.flatMap_cons]
      clear_value c
      simp only at ih
      rw [hstep]
      generalize ((t.filter fun d => w.isDir d).flatMap fun d => (w.listDir d).filter fun f => decide ("gents.py".toList <:+ f)) = rest at hc ih
      generalize ((w.listDir d).filter fun f => decide ("gents.py".toList <:+ f)) = here at hc
      by_cases hex : ∃ f ∈ here, w.Has name f
      · obtain ⟨a0, f0, b0, hab, hno, hf0⟩ := first_has _ _ hex
        rw [hab, fromModules_some w name ng a0 f0 b0 hno hf0]
        dsimp only
        refine ⟨fun h => absurd hf0 (h f0 (by rw [hc, hab]; simp)), fun a f b hcab ha hf => ?_⟩
        have : f = f0 := by
          rw [hc, hab, List.append_assoc, List.cons_append] at hcab
          exact (first_unique hcab hno hf0 ha hf).symm
        rw [this]
      · push Not at hex
        rw [fromModules_none w name ng here hex]
        dsimp only
        refine ⟨fun h => ih.1 fun f hf => h f (by rw [hc]; exact List.mem_append_right _ hf), fun a f b hcab ha hf => ?_⟩
        rw [hc] at hcab
        rcases List.append_eq_append_iff.1 hcab with ⟨u, h1, h2⟩ | ⟨u, h1, h2⟩
        · exact ih.2 u f b h2 (fun g hg => ha g (by rw [h1]; simp [hg])) hf
        · cases u with
          | nil => exact ih.2 [] f b (by simpa using h2.symm) (by simp) hf
          | cons x u =>
            simp only [List.cons_append, List.cons.injEq] at h2
            exact absurd hf (hex f (by rw [h1, h2.1]; simp))
    · have hc : c = (t.filter fun d => w.isDir d).flatMap fun d => (w.listDir d).filter fun f => decide ("gents.py".toList <:+ f) := by
        simp only [c, List.filter_cons, hd, Bool.false_eq_true, if_false]
      rw [hc, World.fromDirs, if_neg hd]
      exact ih

theorem searchPath_iff (w : World) (dirs : List Str) : w.SearchPath dirs ↔ dirs = w.agentDirs := by
  unfold World.SearchPath World.agentDirs
  cases w.pythonPath with
  | none =>
    have h1 : ';' ∉ "$PYTHONPATH".toList := by decide
    have h2 : splitBy ':' "$PYTHONPATH".toList = ["$PYTHONPATH".toList] := splitBy_none (by decide)
    simp only [Option.getD_none]
    rw [if_pos h1, h2]
    constructor
    · rintro ⟨ps, rfl, -, rfl⟩; rfl
    · rintro rfl; exact ⟨_, rfl, by simp, rfl⟩
  | some path =>
    simp only [Option.getD_some]
    by_cases h : ';' ∈ path
    · rw [if_neg (not_not.2 h)]
      constructor
      · rintro ⟨ps, rfl, hne, h1, -⟩
        obtain ⟨h2, h3⟩ := h1 h
        rw [← splitBy_intercalate hne h2, h3]
      · rintro rfl
        exact ⟨_, rfl, splitBy_ne _ _, fun _ => ⟨(splitBy_spec ';' path).2, (splitBy_spec ';' path).1⟩, fun h' => absurd h h'⟩
    · rw [if_pos h]
      constructor
      · rintro ⟨ps, rfl, hne, -, h1⟩
        obtain ⟨h2, h3⟩ := h1 h
        rw [← splitBy_intercalate hne h2, h3]
      · rintro rfl
        exact ⟨_, rfl, splitBy_ne _ _, fun h' => absurd h' h, fun _ => ⟨(splitBy_spec ':' path).2, (splitBy_spec ':' path).1⟩⟩

/-- C75: `loadAgent`. The files whose names end with `gents.py` are taken in the order of the directories of `PYTHONPATH` and of the current directory; the first one that can be imported and has
the name decides. Any name of a module counts, not only agents. -/
theorem C75_load (w : World) (name : Str) (ng : Bool) : ∃ dirs, (∀ ds, w.SearchPath ds ↔ ds = dirs) ∧
    ((∀ f ∈ w.Candidates dirs, ¬ w.Has name f) → w.loadAgent name ng = .error .noAgent) ∧
    ∀ a f b, w.Candidates dirs = a ++ f :: b → (∀ g ∈ a, ¬ w.Has name g) → w.Has name f →
      w.loadAgent name ng = if ng = true ∧ f = "keyboardAgents.py".toList then .error .keyboard else .ok (f.take (f.length - 3), name) :=
  ⟨w.agentDirs, searchPath_iff w, fromDirs_spec w name ng w.agentDirs⟩

/-! ### The command line in the repository -/

theorem demo_candidates {w : World} (h : InDemo w) : (∀ f ∈ w.Candidates w.agentDirs, f = "keyboardAgents.py".toList ∨ f = "ghostAgents.py".toList) ∧
    "keyboardAgents.py".toList ∈ w.Candidates w.agentDirs ∧ "ghostAgents.py".toList ∈ w.Candidates w.agentDirs := by
  have hdot : ".".toList ∈ w.agentDirs := List.mem_append_right _ (List.mem_singleton.2 rfl)
  refine ⟨fun f hf => ?_, ?_, ?_⟩
  · simp only [World.Candidates, List.mem_flatMap, List.mem_filter, decide_eq_true_eq] at hf
    obtain ⟨d, ⟨-, hd⟩, hf, hs⟩ := hf
    exact h.only d f hd hf hs
  · simp only [World.Candidates, List.mem_flatMap, List.mem_filter, decide_eq_true_eq]
    exact ⟨_, ⟨hdot, h.here⟩, h.files.1, by decide⟩
  · simp only [World.Candidates, List.mem_flatMap, List.mem_filter, decide_eq_true_eq]
    exact ⟨_, ⟨hdot, h.here⟩, h.files.2, by decide⟩

theorem demo_has {w : World} (h : InDemo w) (name : Str) : (w.Has name "keyboardAgents.py".toList ↔ name ∈ keyboardNames) ∧
    (w.Has name "ghostAgents.py".toList ↔ name ∈ ghostNames) := by
  have e1 : "keyboardAgents.py".toList.take ("keyboardAgents.py".toList.length - 3) = "keyboardAgents".toList := by decide
  have e2 : "ghostAgents.py".toList.take ("ghostAgents.py".toList.length - 3) = "ghostAgents".toList := by decide
  constructor
  · unfold World.Has
    rw [e1, h.keyboard]
    simp
  · unfold World.Has
    rw [e2, h.ghosts]
    simp

/-- Loading with graphics: any name of the two modules. -/
theorem demo_load {w : World} (h : InDemo w) (name : Str) :
    (name ∈ keyboardNames ∨ name ∈ ghostNames → ∃ m, w.loadAgent name false = .ok (m, name)) ∧
    (¬ (name ∈ keyboardNames ∨ name ∈ ghostNames) → w.loadAgent name false = .error .noAgent) := by
  obtain ⟨hc, hk, hg⟩ := demo_candidates h
  obtain ⟨h1, h2⟩ := demo_has h name
  obtain ⟨dirs, hdirs, l1, l2⟩ := C75_load w name false
  have hd := (hdirs _).1 ((searchPath_iff w _).2 rfl)
  rw [← hd] at l1 l2
  constructor
  · intro hn
    have hex : ∃ f ∈ w.Candidates w.agentDirs, w.Has name f := by
      rcases hn with hn | hn
      · exact ⟨_, hk, h1.2 hn⟩
      · exact ⟨_, hg, h2.2 hn⟩
    obtain ⟨a, f, b, hab, hno, hf⟩ := first_has _ _ hex
    exact ⟨_, by rw [l2 a f b hab hno hf, if_neg fun hc => Bool.false_ne_true hc.1]⟩
  · intro hn
    refine l1 fun f hf => ?_
    rcases hc f hf with rfl | rfl
    · rw [h1]; exact fun hm => hn (Or.inl hm)
    · rw [h2]; exact fun hm => hn (Or.inr hm)

theorem signature_names {name : Str} {sig : List Str × List Str} (h : signature name = some sig) : name ∈ keyboardNames ∨ name ∈ ghostNames := by
  unfold signature at h
  split at h
  · rename_i hn
    left
    rcases hn with rfl | rfl | rfl <;> decide
  · split at h
    · rename_i hn
      right
      rcases hn with rfl | rfl <;> decide
    · split at h
      · rename_i hn
        right
        subst hn
        decide
      · split at h
        · rename_i hn
          right
          rcases hn with rfl | rfl <;> decide
        · cases h

theorem signature_params {name : Str} {need more : List Str} (h : signature name = some (need, more)) {k : Str} (hk : k ∈ need ∨ k ∈ more) :
    k = "index".toList ∨ k = "prob_attack".toList ∨ k = "prob_scaredFlee".toList := by
  unfold signature at h
  split at h
  · cases h; simp at hk; exact Or.inl (by simpa using hk)
  · split at h
    · cases h; simp at hk; exact Or.inl (by simpa using hk)
    · split at h
      · cases h; simpa using hk
      · split at h
        · cases h; simp at hk
        · cases h

/-- C75: the command line in the repository as it is. It is accepted exactly when the layout is found and correct, neither text mode is asked for, there are no training games, Pacman's class takes the
arguments, and the ghosts' class takes a number or there are no ghosts. The text modes and the training games, which the program offers, thus never work. -/
theorem C75_command {w : World} (h : InDemo w) (o : Options) :
    ((∃ a, readCommand w o = .ok a) ↔
      (∃ l, (getLayout w.files w.cwd o.layout).2 = .ok (some l)) ∧ o.textGraphics = false ∧ o.quietGraphics = false ∧ o.numTraining ≤ 0 ∧
      (∃ d, parseAgentArgs o.agentArgs = .ok d ∧ TakesKeywords o.pacman d.keys) ∧ (o.ghost ∈ keyboardNames ∨ o.ghost ∈ ghostNames) ∧
      (TakesNumber o.ghost ∨ o.numGhosts ≤ 0)) ∧
    ∀ a, readCommand w o = .ok a → (getLayout w.files w.cwd o.layout).2 = .ok (some a.layout) ∧ a.numTraining = none ∧ a.pacman.2 = o.pacman ∧
      a.ghosts.length = o.numGhosts.toNat ∧ (∀ g ∈ a.ghosts, g.2 = o.ghost) ∧ a.numGames = o.numGames ∧ a.record = o.record ∧
      a.catchExceptions = o.catchExceptions := by
  -- what is needed
  have need : ∀ a, readCommand w o = .ok a → o.textGraphics = false ∧ o.quietGraphics = false := by
    intro a ha
    by_contra hcon
    have ht : (o.quietGraphics || o.textGraphics) = true := by
      cases h1 : o.textGraphics <;> cases h2 : o.quietGraphics <;> simp [h1, h2] at hcon ⊢
    have hcond : ((o.quietGraphics || o.textGraphics) && (w.imports "textDisplay".toList).isNone) = true := by
      rw [ht, h.noText]; rfl
    unfold readCommand at ha
    rw [hcond] at ha
    generalize (if o.numTraining > 0 then some o.numTraining else none) = nt at ha
    split at ha
    · cases ha
    · cases ha
    dsimp only at ha
    split at ha
    · cases ha
    split at ha
    · cases ha
    split_ifs at ha
    split at ha
    · cases ha
    split_ifs at ha
    exact absurd rfl ‹¬ (true = true)›
  have full : ∀ a, readCommand w o = .ok a → ∃ l d, (getLayout w.files w.cwd o.layout).2 = .ok (some l) ∧ parseAgentArgs o.agentArgs = .ok d ∧
      TakesKeywords o.pacman (agentOpts o d).keys ∧ (o.ghost ∈ keyboardNames ∨ o.ghost ∈ ghostNames) ∧ (TakesNumber o.ghost ∨ o.numGhosts ≤ 0) ∧
      ∃ m m', a = ⟨l, if o.numTraining > 0 then some o.numTraining else none, (m, o.pacman), List.replicate o.numGhosts.toNat (m', o.ghost), o.numGames, o.record, o.catchExceptions⟩ := by
    intro a ha
    obtain ⟨ht, hq⟩ := need a ha
    unfold readCommand at ha
    rw [ht, hq] at ha
    generalize (if o.numTraining > 0 then some o.numTraining else none) = nt at ha ⊢
    simp only [Bool.or_self, Bool.false_and, Bool.false_eq_true, if_false] at ha
    split at ha
    · cases ha
    · cases ha
    rename_i l hl
    split at ha
    · cases ha
    rename_i pac hpac
    split at ha
    · cases ha
    rename_i d hd
    split_ifs at ha with hcall hval
    split at ha
    · cases ha
    rename_i gh hgh
    split_ifs at ha with hnum
    cases ha
    have hname : ∀ {name : Str} {p : Str × Str}, w.loadAgent name false = .ok p → p.2 = name ∧ (name ∈ keyboardNames ∨ name ∈ ghostNames) := by
      intro name p hp
      by_cases hn : name ∈ keyboardNames ∨ name ∈ ghostNames
      · obtain ⟨m, hm⟩ := (demo_load h name).1 hn
        rw [hm] at hp
        cases hp
        exact ⟨rfl, hn⟩
      · rw [(demo_load h name).2 hn] at hp
        cases hp
    obtain ⟨hp1, -⟩ := hname hpac
    obtain ⟨hg1, hg2⟩ := hname hgh
    refine ⟨l, d, hl, hd, ?_, hg2, ?_, pac.1, gh.1, ?_⟩
    · rw [h.keywords, hp1] at hcall
      exact hcall
    · by_cases hz : o.numGhosts ≤ 0
      · exact Or.inr hz
      · left
        push Not at hnum
        have := hnum 0 (by rw [Finset.mem_range]; omega)
        rw [ne_eq, Bool.not_eq_false, h.number, hg1] at this
        exact this
    · rw [← hp1, ← hg1]
  have noTrain : ∀ d, TakesKeywords o.pacman (agentOpts o d).keys → o.numTraining ≤ 0 ∧ agentOpts o d = d := by
    rintro d ⟨nd, more, hs, -, hall⟩
    have hnt : "numTraining".toList ∉ (agentOpts o d).keys := by
      intro hk
      rcases signature_params hs (hall _ hk) with hk | hk | hk <;> exact absurd hk (by decide)
    have hle : o.numTraining ≤ 0 := by
      by_contra hpos
      apply hnt
      unfold agentOpts
      by_cases hin : "numTraining".toList ∈ d.keys
      · rw [if_neg fun hx => hx.2 hin]
        exact hin
      · rw [if_pos ⟨by omega, hin⟩, Dict.mem_keys_set]
        exact Or.inl rfl
    refine ⟨hle, ?_⟩
    unfold agentOpts
    rw [if_neg (by omega)]
  refine ⟨⟨fun ⟨a, ha⟩ => ?_, ?_⟩, fun a ha => ?_⟩
  · obtain ⟨ht, hq⟩ := need a ha
    obtain ⟨l, d, hl, hd, hk, hg, hn, -⟩ := full a ha
    obtain ⟨hle, heq⟩ := noTrain d hk
    rw [heq] at hk
    exact ⟨⟨l, hl⟩, ht, hq, hle, ⟨d, hd, hk⟩, hg, hn⟩
  · rintro ⟨⟨l, hl⟩, ht, hq, hle, ⟨d, hd, hk⟩, hg, hn⟩
    have heq : agentOpts o d = d := by
      unfold agentOpts
      rw [if_neg (by omega)]
    obtain ⟨nd, more, hs, hneed, hall⟩ := hk
    obtain ⟨m, hm⟩ := (demo_load h o.pacman).1 (signature_names hs)
    obtain ⟨m', hm'⟩ := (demo_load h o.ghost).1 hg
    have hnt : d.get? "numTrain".toList = none := by
      cases hx : d.get? "numTrain".toList with
      | none => rfl
      | some v =>
        have hkx : "numTrain".toList ∈ d.keys := (Dict.mem_keys _ _).2 ⟨v, hx⟩
        rcases signature_params hs (hall _ hkx) with hk | hk | hk <;> exact absurd hk (by decide)
    unfold readCommand
    rw [hl, ht, hq]
    simp only [Bool.or_self]
    rw [hm]
    dsimp only
    rw [hd]
    dsimp only
    rw [heq, if_neg (by rw [not_not, h.keywords]; exact ⟨nd, more, hs, hneed, hall⟩), hnt]
    dsimp only
    rw [if_neg (by simp), hm']
    dsimp only
    rw [if_neg, if_neg (by simp)]
    · exact ⟨_, rfl⟩
    · rintro ⟨i, hi, hc⟩
      rcases hn with hn | hn
      · rw [(h.number m' o.ghost (i + 1)).2 hn] at hc
        cases hc
      · rw [Finset.mem_range] at hi
        omega
  · obtain ⟨l, d, hl, hd, hk, hg, hn, m, m', rfl⟩ := full a ha
    obtain ⟨hle, -⟩ := noTrain d hk
    refine ⟨hl, ?_, rfl, by simp, fun g hg => by rw [List.eq_of_mem_replicate hg], rfl, rfl, rfl⟩
    dsimp only
    rw [if_neg (by omega)]

end Verif.Pac
