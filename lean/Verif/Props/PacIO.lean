import Verif.Model.PacIO
import Verif.Props.DrawingText

/-!
# Muted prints, saved frames and names: C95, C96, C97
-/

namespace Verif.Pac

/-! ### Muted prints -/

/-- The last call of one of the two functions. -/
def lastSwitch (ops : List PrintOp) : Option PrintOp := (ops.filter fun o => o = .mute ∨ o = .unmute).getLast?

/-- What is to be written, given that all goes to the file `k`: the prints that do not follow a call of `mutePrint` as the last call. -/
def Audible (k : ℕ) (ops : List PrintOp) : List (ℕ × Str) :=
  (List.range ops.length).filterMap fun (i : ℕ) => match (ops[i]? : Option PrintOp) with
    | some (PrintOp.print t) => if lastSwitch (ops.take i) = some .mute then none else some (k, t)
    | _ => none

theorem printRun_append (s : Muting) (l m : List PrintOp) :
    printRun s (l ++ m) = ((printRun (printRun s l).1 m).1, (printRun s l).2 ++ (printRun (printRun s l).1 m).2) := by
  induction l generalizing s with
  | nil => rfl
  | cons a t ih =>
    rw [List.cons_append, printRun, ih, printRun]
    simp

theorem lastSwitch_snoc (l : List PrintOp) (o : PrintOp) : lastSwitch (l ++ [o]) = if o = .mute ∨ o = .unmute then some o else lastSwitch l := by
  unfold lastSwitch
  rw [List.filter_append]
  by_cases h : o = .mute ∨ o = .unmute
  · rw [if_pos h]
    simp [h]
  · rw [if_neg h]
    simp [h]

theorem audible_snoc (k : ℕ) (l : List PrintOp) (o : PrintOp) : Audible k (l ++ [o]) = Audible k l ++ (match o with
    | .print t => if lastSwitch l = some .mute then [] else [(k, t)]
    | _ => []) := by
  unfold Audible
  rw [List.length_append, List.length_singleton, List.range_succ, List.filterMap_append]
  congr 1
  · apply List.filterMap_congr
    intro i hi
    have hi' := List.mem_range.1 hi
    rw [List.getElem?_append_left hi', List.take_append_of_le_length hi'.le]
  · simp only [List.filterMap_cons, List.filterMap_nil, List.getElem?_concat_length]
    rw [List.take_left']
    · cases o <;> simp
      split <;> simp_all
    · rfl

/-- **C95** Without other changes of `sys.stdout`, what is printed is written exactly if the last call before was not `mutePrint`, however the calls are nested;
and after a last call of `unmutePrint`, or without any call, `sys.stdout` is what it was. -/
theorem C95_prints (k : ℕ) (o : Option Sink) (ops : List PrintOp) (h : ∀ op ∈ ops, ∀ x, op ≠ .redirect x) :
    (printRun ⟨some (.file k), o, false⟩ ops).2 = Audible k ops ∧
    (lastSwitch ops ≠ some .mute → (printRun ⟨some (.file k), o, false⟩ ops).1.stdout = some (.file k)) ∧
    (lastSwitch ops = some .mute → (printRun ⟨some (.file k), o, false⟩ ops).1.stdout = some .null) := by
  have key : (printRun ⟨some (.file k), o, false⟩ ops).2 = Audible k ops ∧
      (lastSwitch ops ≠ some .mute → (printRun ⟨some (.file k), o, false⟩ ops).1.stdout = some (.file k) ∧
        (printRun ⟨some (.file k), o, false⟩ ops).1.muted = false) ∧
      (lastSwitch ops = some .mute → (printRun ⟨some (.file k), o, false⟩ ops).1 = ⟨some .null, some (.file k), true⟩) := by
    induction ops using List.reverseRecOn with
    | nil => exact ⟨rfl, fun _ => ⟨rfl, rfl⟩, fun h => by simp [lastSwitch] at h⟩
    | append_singleton l op ih =>
      obtain ⟨h1, h2, h3⟩ := ih fun x hx => h x (by simp [hx])
      rw [printRun_append, audible_snoc, lastSwitch_snoc, h1]
      generalize printRun ⟨some (.file k), o, false⟩ l = r at h1 h2 h3
      obtain ⟨⟨so, og, mu⟩, w⟩ := r
      by_cases hm : lastSwitch l = some .mute
      · have h4 := h3 hm
        simp only [Muting.mk.injEq] at h4
        obtain ⟨rfl, rfl, rfl⟩ := h4
        cases op with
        | mute => simp [printRun, printStep, mutePrint]
        | unmute => simp [printRun, printStep, unmutePrint]
        | redirect x => exact absurd rfl (h _ (by simp) x)
        | print t => simp [printRun, printStep, hm]
      · obtain ⟨h4, h5⟩ := h2 hm
        simp only at h4 h5
        subst h4 h5
        cases op with
        | mute => simp [printRun, printStep, mutePrint]
        | unmute => simp [printRun, printStep, unmutePrint]
        | redirect x => exact absurd rfl (h _ (by simp) x)
        | print t => simp [printRun, printStep, hm]
  exact ⟨key.1, fun hm => (key.2.1 hm).1, fun hm => by rw [key.2.2 hm]⟩

/-- **C95** Whatever happens between a call of `mutePrint` and the next call of `unmutePrint`, `sys.stdout` is afterwards what it was before: a change made
in between is lost. -/
theorem C95_restored (s : Muting) (hs : s.muted = false) (ops : List PrintOp) (h : .unmute ∉ ops) :
    (printRun s (.mute :: ops ++ [.unmute])).1.stdout = s.stdout ∧ (printRun s (.mute :: ops ++ [.unmute])).1.muted = false := by
  have key : ∀ (ops : List PrintOp) (t : Muting), .unmute ∉ ops → t.muted = true → (printRun t ops).1.muted = true ∧ (printRun t ops).1.original = t.original := by
    intro ops
    induction ops with
    | nil => exact fun t _ ht => ⟨ht, rfl⟩
    | cons a l ih =>
      intro t hn ht
      rw [printRun]
      have hl : PrintOp.unmute ∉ l := fun hx => hn (List.mem_cons_of_mem _ hx)
      cases a with
      | mute =>
        have : (printStep t .mute).1 = t := by simp [printStep, mutePrint, ht]
        simp only [this]
        exact ih t hl ht
      | unmute => exact absurd (List.mem_cons_self ..) hn
      | redirect x => exact ih { t with stdout := x } hl ht
      | print y => exact ih t hl ht
  have h0 : (printStep s .mute).1 = ⟨some .null, s.stdout, true⟩ := by simp [printStep, mutePrint, hs]
  have h00 : (printRun s (.mute :: ops)).1 = (printRun ⟨some .null, s.stdout, true⟩ ops).1 := by rw [printRun]; simp only [h0]
  rw [printRun_append, h00]
  obtain ⟨h1, h2⟩ := key ops ⟨some .null, s.stdout, true⟩ h rfl
  generalize printRun ⟨some .null, s.stdout, true⟩ ops = r at h1 h2
  obtain ⟨⟨so, og, mu⟩, w⟩ := r
  simp only at h1 h2
  subst h1 h2
  simp [printRun, printStep, unmutePrint]

/-- **C95, refuted** "What is printed while muted is not written": after `sys.stdout` is set in between it is, although the prints are still muted. -/
theorem C95_muted_refuted : ∃ (ops : List PrintOp) (t : Str), (printRun ⟨some (.file 0), none, false⟩ ops).1.muted = true ∧
    (printRun ⟨some (.file 0), none, false⟩ (ops ++ [.print t])).2 = [(1, t)] :=
  ⟨[.mute, .redirect (some (.file 1))], ['a'], rfl, rfl⟩

/-- Nested calls: the inner call of `unmutePrint` ends the muting. -/
theorem mute_demo : (printRun ⟨some (.file 0), none, false⟩
    [.print ['a'], .mute, .print ['b'], .mute, .print ['c'], .unmute, .print ['d'], .unmute, .print ['e']]).2 = [(0, ['a']), (0, ['d']), (0, ['e'])] := rfl

/-! ### Saved frames -/

/-- The value of a text of digits. -/
theorem padEight_value (n : ℕ) : Nat.ofDigitChars 10 (padEight n) 0 = n := by
  unfold padEight
  rw [Nat.ofDigitChars_append]
  have : ∀ k, Nat.ofDigitChars 10 (List.replicate k '0') 0 = 0 := by
    intro k
    induction k with
    | zero => rfl
    | succ k ih => rw [List.replicate_succ, Nat.ofDigitChars_cons]; simpa using ih
  rw [this]
  exact Nat.ofDigitChars_ten_toDigits

theorem frameName_inj {n m : ℕ} (h : frameName n = frameName m) : n = m := by
  unfold frameName at h
  have := List.append_cancel_left (List.append_cancel_right h)
  rw [← padEight_value n, ← padEight_value m, this]

/-- **C96** Saving the pictures `ps` one after the other: the frames are numbered on, every picture is found under the name of its number, and all other files are kept. -/
theorem C96_frames {A : Type} (n : ℕ) (d : Option (Str → Option A)) (ps : List A) :
    (ps.foldl saveFrame ⟨true, n, d⟩).number = n + ps.length ∧
    (ps ≠ [] → ∃ e, (ps.foldl saveFrame ⟨true, n, d⟩).folder = some e ∧ (∀ i p, ps[i]? = some p → e (frameName (n + i)) = some p) ∧
      ∀ s, (∀ i < ps.length, s ≠ frameName (n + i)) → e s = d.elim none fun f => f s) ∧
    (∀ f : Frames A, f.save = false → ps.foldl saveFrame f = f) := by
  refine ⟨?_, ?_, ?_⟩
  · induction ps generalizing n d with
    | nil => rfl
    | cons p t ih =>
      rw [List.foldl_cons]
      have : saveFrame ⟨true, n, d⟩ p = ⟨true, n + 1, (saveFrame ⟨true, n, d⟩ p).folder⟩ := rfl
      rw [this, ih, List.length_cons]
      omega
  · intro hne
    induction ps using List.reverseRecOn with
    | nil => exact absurd rfl hne
    | append_singleton l p ih =>
      have hnum : (l.foldl saveFrame ⟨true, n, d⟩).number = n + l.length ∧ (l.foldl saveFrame ⟨true, n, d⟩).save = true := by
        clear ih hne
        induction l generalizing n d with
        | nil => exact ⟨rfl, rfl⟩
        | cons p t ih =>
          rw [List.foldl_cons]
          have : saveFrame ⟨true, n, d⟩ p = ⟨true, n + 1, (saveFrame ⟨true, n, d⟩ p).folder⟩ := rfl
          rw [this]
          obtain ⟨h1, h2⟩ := ih (n + 1) (saveFrame ⟨true, n, d⟩ p).folder
          exact ⟨by rw [h1, List.length_cons]; omega, h2⟩
      rw [List.foldl_append, List.foldl_cons, List.foldl_nil]
      by_cases hl : l = []
      · subst hl
        refine ⟨_, rfl, ?_, ?_⟩
        · intro i q hq
          cases i with
          | zero => simp at hq; subst hq; simp
          | succ i => simp at hq
        · intro s hs
          have := hs 0 (by simp)
          rw [Nat.add_zero] at this
          simp only [List.foldl_nil]
          rw [Function.update_of_ne this]
          cases d <;> rfl
      · obtain ⟨e, h1, h2, h3⟩ := ih hl
        generalize l.foldl saveFrame ⟨true, n, d⟩ = F at hnum h1
        obtain ⟨sv, nu, fo⟩ := F
        simp only at hnum h1
        obtain ⟨rfl, rfl⟩ := hnum
        subst h1
        refine ⟨_, rfl, ?_, ?_⟩
        · intro i q hq
          simp only
          by_cases hi : i < l.length
          · rw [List.getElem?_append_left hi] at hq
            rw [Function.update_of_ne, h2 i q hq]
            intro h
            have := frameName_inj h
            omega
          · have hi' : i = l.length := by
              have := (List.getElem?_eq_some_iff.1 hq).1
              simp at this
              omega
            subst hi'
            simp at hq
            subst hq
            simp
        · intro s hs
          simp only
          rw [Function.update_of_ne (hs l.length (by simp)), h3 s fun i hi => hs i (by simp; omega)]
  · intro f hf
    induction ps with
    | nil => rfl
    | cons p t ih =>
      rw [List.foldl_cons]
      have : saveFrame f p = f := by simp [saveFrame, hf]
      rw [this, ih]

/-- **C96** Different frames have different names. -/
theorem C96_names (n m : ℕ) : frameName n = frameName m ↔ n = m := ⟨frameName_inj, fun h => by rw [h]⟩

/-! ### Order of the names -/

theorem lt_append {a b : Str} (hl : a.length = b.length) (h : a < b) (c d : Str) : a ++ c < b ++ d := by
  induction a generalizing b with
  | nil =>
    cases b with
    | nil => exact absurd h (by simp)
    | cons y t => simp at hl
  | cons x s ih =>
    cases b with
    | nil => simp at hl
    | cons y t =>
      rw [List.cons_append, List.cons_append]
      rcases List.cons_lt_cons_iff.1 h with h' | ⟨rfl, h'⟩
      · exact List.cons_lt_cons_iff.2 (Or.inl h')
      · exact List.cons_lt_cons_iff.2 (Or.inr ⟨rfl, ih (by simpa using hl) h'⟩)

theorem append_lt {a b : Str} (c : Str) (h : a < b) : c ++ a < c ++ b := by
  induction c with
  | nil => exact h
  | cons x s ih => exact List.cons_lt_cons_iff.2 (Or.inr ⟨rfl, ih⟩)

/-- `k` digits of a number. -/
def fixedDigits : ℕ → ℕ → Str
  | 0, _ => []
  | k + 1, n => fixedDigits k (n / 10) ++ [Nat.digitChar (n % 10)]

theorem fixedDigits_length (k n : ℕ) : (fixedDigits k n).length = k := by
  induction k generalizing n with
  | zero => rfl
  | succ k ih => simp [fixedDigits, ih]

theorem digitChar_lt {a b : ℕ} (h : a < b) (hb : b < 10) : Nat.digitChar a < Nat.digitChar b := by
  interval_cases b <;> interval_cases a <;> decide

theorem fixedDigits_lt (k : ℕ) : ∀ {n m : ℕ}, n < m → m < 10 ^ k → fixedDigits k n < fixedDigits k m := by
  induction k with
  | zero => intro n m h hm; simp at hm; omega
  | succ k ih =>
    intro n m h hm
    unfold fixedDigits
    by_cases hq : n / 10 < m / 10
    · exact lt_append (by simp [fixedDigits_length]) (ih hq (by rw [pow_succ] at hm; omega)) _ _
    · have : n / 10 = m / 10 := by omega
      rw [this]
      apply append_lt
      exact List.cons_lt_cons_iff.2 (Or.inl (digitChar_lt (by omega) (by omega)))

theorem fixedDigits_zero (k : ℕ) : fixedDigits k 0 = List.replicate k '0' := by
  induction k with
  | zero => rfl
  | succ k ih =>
    rw [fixedDigits, Nat.zero_div, ih, List.replicate_succ']
    rfl

theorem fixedDigits_pad (k : ℕ) : ∀ n, n < 10 ^ k → 0 < k → fixedDigits k n = List.replicate (k - (natStr n).length) '0' ++ natStr n := by
  induction k with
  | zero => intro n _ h; omega
  | succ k ih =>
    intro n hn _
    rw [fixedDigits]
    by_cases h10 : n < 10
    · have h1 : n / 10 = 0 := by omega
      have h2 : natStr n = [Nat.digitChar n] := Nat.toDigits_of_lt_base h10
      rw [h1, fixedDigits_zero, h2, Nat.mod_eq_of_lt h10]
      simp
    · have h2 : natStr n = natStr (n / 10) ++ [Nat.digitChar (n % 10)] := Nat.toDigits_of_base_le (by omega) (by omega)
      have hk : 0 < k := by
        rcases Nat.eq_zero_or_pos k with rfl | h
        · simp at hn; omega
        · exact h
      rw [ih (n / 10) (by rw [pow_succ] at hn; omega) hk, h2]
      simp

/-- **C96** Up to `10 ^ 8` frames their names are in the order of the frames, so that `frame*` lists them in this order. -/
theorem C96_order (n m : ℕ) (h : n < m) (hm : m < 10 ^ 8) : frameName n < frameName m := by
  have h1 : padEight n < padEight m := by
    unfold padEight
    rw [← fixedDigits_pad 8 n (by omega) (by omega), ← fixedDigits_pad 8 m hm (by omega)]
    exact fixedDigits_lt 8 h hm
  have hlen : ∀ k < 10 ^ 8, (padEight k).length = 8 := by
    intro k hk
    unfold padEight
    rw [← fixedDigits_pad 8 k hk (by omega), fixedDigits_length]
  unfold frameName
  rw [List.append_assoc, List.append_assoc]
  exact append_lt _ (lt_append (by rw [hlen n (by omega), hlen m hm]) h1 _ _)

/-- **C96, refuted** beyond: frame `10 ^ 8` comes before frame `10 ^ 8 - 1`. -/
theorem C96_order_refuted : frameName (10 ^ 8) < frameName (10 ^ 8 - 1) := by decide

/-- The names of two frames. -/
theorem frame_demo : frameName 42 = "frame_00000042.ps".toList := by decide

/-! ### Names -/

theorem splitBy_none (c : Char) (s : Str) (h : c ∉ s) : splitBy c s = [s] := by
  induction s with
  | nil => rfl
  | cons x t ih =>
    rw [splitBy, if_neg (by rintro rfl; simp at h), ih (fun hc => h (List.mem_cons_of_mem _ hc))]

theorem splitBy_ne (c : Char) (s : Str) : splitBy c s ≠ [] := by
  cases s with
  | nil => simp [splitBy]
  | cons x t =>
    rw [splitBy]
    split
    · simp
    · split <;> simp

theorem splitBy_join (c : Char) (s t : Str) (h : c ∉ s) : splitBy c (s ++ c :: t) = s :: splitBy c t := by
  induction s with
  | nil => simp [splitBy]
  | cons x r ih =>
    rw [List.cons_append, splitBy, if_neg (by rintro rfl; simp at h), ih (fun hc => h (List.mem_cons_of_mem _ hc))]

/-- **C97** `lookup` of a name without a dot looks into the given namespace only: it finds what the name means there, and never complains about a conflict. Names
defined in imported modules are not found. -/
theorem C97_plain (imports : List Str → Option (List (Str × ℕ))) (name : Str) (ns : List (Str × ℕ)) (hn : (ns.map Prod.fst).Nodup) (hd : '.' ∉ name) :
    (∀ o, lookup imports name ns = .ok o ↔ (name, o) ∈ ns) ∧
    (lookup imports name ns = .error .notFound ↔ name ∉ ns.map Prod.fst) ∧ lookup imports name ns ≠ .error .conflict := by
  unfold lookup
  rw [List.count_eq_zero.2 hd]
  simp only [gt_iff_lt, lt_self_iff_false, if_false]
  have key : ∀ o, (name, o) ∈ ns → ns.filter (fun p => p.1 = name) = [(name, o)] := by
    induction ns with
    | nil => intro o h; cases h
    | cons q t ih =>
      intro o h
      rw [List.map_cons, List.nodup_cons] at hn
      rcases List.mem_cons.1 h with rfl | h
      · have : t.filter (fun p => decide (p.1 = name)) = [] := by
          rw [List.filter_eq_nil_iff]
          intro p hp
          simp only [decide_eq_true_eq]
          intro he
          exact hn.1 (List.mem_map.2 ⟨p, hp, he⟩)
        rw [List.filter_cons_of_pos (by simp), this]
      · have : q.1 ≠ name := by
          intro he
          exact hn.1 (List.mem_map.2 ⟨(name, o), h, he.symm⟩)
        rw [List.filter_cons_of_neg (by simpa using this)]
        exact ih hn.2 o h
  by_cases h : name ∈ ns.map Prod.fst
  · obtain ⟨⟨a, o⟩, ho, rfl⟩ := List.mem_map.1 h
    rw [key o ho]
    refine ⟨fun o' => ?_, by simpa using h, by simp⟩
    constructor
    · intro he
      simp only [List.map_cons, List.map_nil, Except.ok.injEq] at he
      rwa [← he]
    · intro ho'
      have := (key o ho).symm.trans (key o' ho')
      simp only [List.cons.injEq, Prod.mk.injEq, true_and, and_true] at this
      simp [this]
  · have : ns.filter (fun p => decide (p.1 = name)) = [] := by
      rw [List.filter_eq_nil_iff]
      intro p hp
      simp only [decide_eq_true_eq]
      intro he
      exact h (List.mem_map.2 ⟨p, hp, he⟩)
    rw [this]
    refine ⟨fun o' => ?_, by simpa using h, by simp⟩
    simp only [List.map_nil, reduceCtorEq, false_iff]
    intro ho
    exact h (List.mem_map.2 ⟨_, ho, rfl⟩)

/-- **C97** `lookup` of a name with one dot finds the object of the module. -/
theorem C97_dotted (imports : List Str → Option (List (Str × ℕ))) (m x : Str) (ns : List (Str × ℕ)) (hm : '.' ∉ m) (hx : '.' ∉ x) :
    lookup imports (m ++ '.' :: x) ns = match imports [m] with
      | none => .error .noModule
      | some d => match d.lookup x with
        | none => .error .noAttribute
        | some o => .ok o := by
  unfold lookup
  rw [if_pos (by rw [gt_iff_lt, List.count_pos_iff]; simp), splitBy_join '.' m x hm, splitBy_none '.' x hx]
  simp only [List.dropLast_cons₂, List.dropLast_singleton, List.take_succ_cons, List.take_zero, List.getLastD_cons, List.getLastD_nil]
  cases imports [m] <;> rfl

/-- **C97, refuted** With two dots the object is sought in the package instead of the module: whatever the module `a.b` contains, its names are not used. -/
theorem C97_package (imports : List Str → Option (List (Str × ℕ))) (a b x : Str) (ns : List (Str × ℕ)) (ha : '.' ∉ a) (hb : '.' ∉ b) (hx : '.' ∉ x)
    {d e : List (Str × ℕ)} (hd : imports [a] = some d) (he : imports [a, b] = some e) :
    lookup imports (a ++ '.' :: (b ++ '.' :: x)) ns = match d.lookup x with
      | none => .error .noAttribute
      | some o => .ok o := by
  unfold lookup
  rw [if_pos (by rw [gt_iff_lt, List.count_pos_iff]; simp), splitBy_join '.' a _ ha, splitBy_join '.' b x hb, splitBy_none '.' x hx]
  simp only [List.dropLast_cons₂, List.dropLast_singleton, List.take_succ_cons, List.take_zero, List.getLastD_cons, List.getLastD_nil]
  simp only [hd, he]
  rfl

/-- A package `a` and its module `a.b`, both with an object named `x`: the one of the package is found. -/
theorem lookup_demo : lookup (fun p => if p = [['a']] then some [(['x'], 1)] else if p = [['a'], ['b']] then some [(['x'], 2)] else none)
    ['a', '.', 'b', '.', 'x'] [] = .ok 1 := rfl

end Verif.Pac
