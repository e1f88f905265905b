import Verif.Model.Text
import Verif.Model.Conditional
import Verif.Model.Joined
import Verif.Model.RelationGraphBuilder

/-!
# Model of the examples

All line numbers without a file name are those of `/repo/Python/research/scripts/examples/building_net_from_coin_toss.py`. Texts are
`List Char`. Texts that are not results of tosses always raise; the class of the exception (`TypeError`, `ValueError`, `AttributeError`) is
not distinguished and is `typeError` here, except where the library raises it. Printing and drawing are left out.
-/

namespace Verif.Coins

/-- `experiment_results` (36-47). -/
def experimentResults : List Str :=
  ["5¢ H", "1¢ H", "5¢ H", "25¢ T", "1¢ H", "5¢ H", "5¢ H then 25¢ H", "1¢ H then 5¢ H", "25¢ T then 5¢ T", "1¢ T then 5¢ T"].map String.toList

/-- `pare_var` (52-71); `none` is Python `None`, returned when no case matches. -/
def pareVar (var val : Str) : Option (Str × Str) :=
  if var = ['1', '¢'] then
    if val = ['H'] then some (['V', '1'], ['h', '1'])
    else if val = ['T'] then some (['V', '1'], ['t', '1'])
    else none
  else if var = ['5', '¢'] then
    if val = ['H'] then some (['V', '2'], ['h', '2'])
    else if val = ['T'] then some (['V', '2'], ['t', '2'])
    else none
  else if var = ['2', '5', '¢'] then
    if val = ['H'] then some (['V', '3'], ['h', '3'])
    else if val = ['T'] then some (['V', '3'], ['t', '3'])
    else none
  else none

/-- `t.split(' ')` (73). -/
def splitSp : Str → List Str
  | [] => [[]]
  | c :: t =>
    if c = ' ' then [] :: splitSp t
    else match splitSp t with
      | [] => [[c]]
      | w :: ws => (c :: w) :: ws

/-- `int(s)` for a text of digits (80). -/
def pyInt (s : Str) : ℕ := s.foldl (fun n c => 10 * n + (c.toNat - '0'.toNat)) 0

/-- `build_outcome` (50-81) with a new builder (90). In the second case the texts of the coins are those of `pare_var` when both of its
results are not `None`; otherwise `int` or `add_relation` raises. -/
def buildOutcome (s : Schema Str Str Str) (prov : ℕ) (t : Str) : Py (Sample Str Str Str) :=
  match splitSp t with
  | [var1, val1] =>
    match pareVar var1 val1 with
    | none => .error .typeError
    | some p => (Builder.new prov).buildSingleNode s p.1 p.2
  | [var1, val1, _, var2, val2] =>
    match pareVar var1 val1, pareVar var2 val2 with
    | some p, some q =>
      match toPy ((Builder.new prov).addRelation s {p, q}
          (.plain (if pyInt var1.dropLast < pyInt var2.dropLast then ['r', '1'] else ['r', '2']))) with
      | .error e => .error e
      | .ok b => b.build
    | _, _ => .error .typeError
  | _ => .error .typeError

/-- `variables` (86). -/
def coinVars : Dict Str (Finset Str) :=
  ⟨[(['V', '1'], {['h', '1'], ['t', '1']}), (['V', '2'], {['h', '2'], ['t', '2']}), (['V', '3'], {['h', '3'], ['t', '3']})], by decide⟩

/-- `relations` (87). -/
def coinRels : Finset Str := {['r', '1'], ['r', '2']}

/-- The body of the loop (90-91). -/
def addResult (b : RGBuilder Str Str Str) (t : Str) : Py (RGBuilder Str Str Str) :=
  match buildOutcome b.schema b.prov t with
  | .error e => .error e
  | .ok smp => toPy (b.addOutcome smp 1)

/-- `build_relation_net` (84-93). -/
def buildRelationNet (prov : ℕ) (T : List Str) : Py (Space Str Str Str) :=
  match RGBuilder.init prov coinVars coinRels none with
  | .error e => .error e
  | .ok b => match T.foldlM addResult b with
    | .error e => .error e
    | .ok b' => b'.build

/-- One line of `describe_relation_net` (99): outcome, count, probability. -/
def describeItem (sp : Space Str Str Str) (p : SampleGraph Str Str Str × ℤ) : Py (SampleGraph Str Str Str × ℤ × ℚ) :=
  match sp.outcomes.countOf p.1 with
  | .error e => .error e
  | .ok n => if sp.outcomes.length = 0 then .error .zeroDiv else .ok (p.1, p.2, (n : ℚ) / (sp.outcomes.length : ℚ))

/-- The lines printed by `describe_relation_net` (96-99). -/
def describe (oI : Order (SampleGraph Str Str Str × ℤ)) (sp : Space Str Str Str) : Py (List (SampleGraph Str Str Str × ℤ × ℚ)) :=
  (oI.run sp.outcomes.items).mapM (describeItem sp)

/-- `examples/building_net_with_joint_probability.py` 25-27: what is described. -/
def jointExample (o : Orders Str Str Str) (prov : ℕ) (T : List Str) : Py (Space Str Str Str) := do
  let sp ← buildRelationNet prov T
  sp.makeJoined o

/-- `examples/building_net_with_conditional_probability.py` 25-28: what is described. -/
def conditionalExample (oI : Order (SampleGraph Str Str Str × ℤ)) (prov : ℕ) (T : List Str) : Py (Space Str Str Str) := do
  let sp ← buildRelationNet prov T
  let b ← toPy ((Builder.new sp.outcomes.prov).addRelation sp.schema {(['V', '1'], ['h', '1']), (['V', '2'], ['h', '2'])} (.plain ['r', '1']))
  let ev ← b.build
  let cs ← sp.conditionalGraph oI ev
  return cs.relationGraph

end Verif.Coins
