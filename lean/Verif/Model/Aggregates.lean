import Verif.Model.Compression
/-
Aggregates that are computed from segments (crates/modelardb_storage/src/optimizer/model_simple_aggregates.rs).

The operators, the names of aggregates and the merging of partial results are those of Apache DataFusion. Only what the rule looks at is in the
plans. An aggregate without groups is executed in mode `Partial` for each partition and the states of all partitions are merged by a
second operator. `COUNT(DISTINCT ...)` and the like, whose states have another type, are not modelled.
-/
namespace ModelarDB.Model.Aggregates

/-- A value in the result of a query. -/
inductive Scalar where
  | null
  | int (n : Int)
  | f32 (x : FVal)
  | f64 (x : FVal)
deriving DecidableEq

/-- The aggregate functions that are computed from segments (model_simple_aggregates.rs:69-168). -/
inductive ModelFunction where
  | count | min | max | sum | avg
deriving DecidableEq, Repr

/-- The argument of an aggregate: an expression of the column that is read. -/
inductive Argument where
  | column
  | literal (n : Int)
  | times (a b : Argument)
deriving DecidableEq, Repr

/-- The argument for a value of the column. -/
def Argument.eval : Argument → FVal → FVal
  | .column, x => x
  | .literal n, _ => FVal.ofInt f32Fmt n
  | .times a b, x => FVal.mul f32Fmt (a.eval x) (b.eval x)

/-- The text of an argument in the name of an aggregate. -/
def Argument.text : Argument → List Char
  | .column => "f".toList
  | .literal n => (toString n).toList
  | .times a b => a.text ++ " * ".toList ++ b.text

/-- An aggregate in a query. -/
structure Call where
  function : List Char
  argument : Argument
deriving DecidableEq, Repr

/-- `AggregateFunctionExpr::name`, e.g. `sum(f)`. -/
def Call.name (c : Call) : List Char := c.function ++ '(' :: c.argument.text ++ [')']

/-- The modes of `AggregateExec`. -/
inductive Mode where
  | partial_ | final | finalPartitioned | single | singlePartitioned
deriving DecidableEq, Repr

/-- Types of the columns that the rule looks at. -/
inductive InputType where
  | value | other
deriving DecidableEq, Repr

/-- What an operator `AggregateExec` computes: aggregates of the query or aggregates of segments. -/
inductive Aggregate where
  | call (c : Call)
  | model (f : ModelFunction)
deriving DecidableEq, Repr

/-- `AggregateExec` without its input. -/
structure AggregateNode where
  mode : Mode
  groupBy : List Nat
  aggregates : List Aggregate
  filters : List (Option Nat)
  inputSchema : List InputType
deriving DecidableEq, Repr

/-- A physical plan. `parquet` is true if the source is a `ParquetSource` and `filtered` is true if a predicate was pushed to it. -/
inductive Plan where
  | dataSource (parquet filtered : Bool)
  | grid (child : Plan)
  | sortedJoin (children : List Plan)
  | repartition (child : Plan)
  | aggregate (node : AggregateNode) (child : Plan)
  | other (children : List Plan)

/-- `ExecutionPlan::children`. -/
def Plan.children : Plan → List Plan
  | .dataSource _ _ => []
  | .grid child => [child]
  | .sortedJoin children => children
  | .repartition child => [child]
  | .aggregate _ child => [child]
  | .other children => children

/-- `ExecutionPlan::with_new_children` with one child. -/
def Plan.withChild : Plan → Plan → Plan
  | .grid _, c => .grid c
  | .sortedJoin _, c => .sortedJoin [c]
  | .repartition _, c => .repartition c
  | .aggregate node _, c => .aggregate node c
  | .other _, c => .other [c]
  | p, _ => p

/-- The name of a rewritten aggregate up to the first parenthesis (model_simple_aggregates.rs:317-318). -/
def functionName (name : List Char) : List Char := name.takeWhile (· != '(')

/-- The name of any aggregate. -/
def Aggregate.name : Aggregate → List Char
  | .call c => c.name
  | .model .count => "model_count".toList
  | .model .min => "model_min".toList
  | .model .max => "model_max".toList
  | .model .sum => "model_sum".toList
  | .model .avg => "model_avg".toList

/-- The match in `try_rewrite_aggregate_exprs` (model_simple_aggregates.rs:320-331). -/
def modelFunction (name : List Char) : Option ModelFunction :=
  if name = "count".toList then some .count
  else if name = "min".toList then some .min
  else if name = "max".toList then some .max
  else if name = "sum".toList then some .sum
  else if name = "avg".toList then some .avg
  else none

/-- `try_rewrite_aggregate_exprs` (model_simple_aggregates.rs:304-334). -/
def tryRewriteAggregates : List Aggregate → Option (List ModelFunction)
  | [] => some []
  | a :: rest =>
    match modelFunction (functionName a.name), tryRewriteAggregates rest with
    | some f, some fs => some (f :: fs)
    | _, _ => none

/-- `can_rewrite_aggregate` (model_simple_aggregates.rs:282-302). -/
def canRewrite : Plan → Bool
  | .dataSource parquet filtered => parquet && !filtered
  | _ => false

/-- `try_new_aggregate_exec` (model_simple_aggregates.rs:252-280). `SortedJoinExec` has an input as a field is added if a query reads none. -/
def tryNewAggregate (node : AggregateNode) : List Plan → Option Plan
  | [gridExec] =>
    match gridExec.children with
    | child :: _ =>
      if canRewrite child then
        match tryRewriteAggregates node.aggregates with
        | some functions => some (.aggregate { node with aggregates := functions.map .model } child)
        | none => none
      else none
    | [] => none
  | _ => none

/-- The input of an aggregate without a `RepartitionExec` (model_simple_aggregates.rs:222-233). -/
def withoutRepartition : Plan → Plan
  | .repartition child => child
  | plan => plan

/-- `rewrite_aggregates_to_use_segments` (model_simple_aggregates.rs:199-250), `none` if the plan is not changed. -/
def rewrite (plan : Plan) : Option Plan :=
  match plan.children with
  | [.aggregate node child] =>
    if node.inputSchema = [.value] ∧ (∀ f ∈ node.filters, f = none) ∧ node.groupBy = [] then
      match withoutRepartition child with
      | .sortedJoin inputs =>
        match tryNewAggregate node inputs with
        | some input => some (plan.withChild input)
        | none => none
      | _ => none
    else none
  | _ => none

/-! ### Executing the rewritten aggregates -/

/-- `f32::MAX`. -/
def f32Max : FVal := .fin false ((2 ^ 128 - 2 ^ 104 : Nat) : ℚ)

/-- `f32::MIN`. -/
def f32Min : FVal := .fin true ((2 ^ 128 - 2 ^ 104 : Nat) : ℚ)

/-- The count of `ModelCountAccumulator` after its segments (model_simple_aggregates.rs:343-372), `none` for a panic. -/
def countState : Int → List Segment → Option Int
  | count, [] => some count
  | count, s :: rest =>
    match segmentLen s.startTime s.endTime s.timestamps with
    | none => none
    | some n => countState (wrapI64 (count + wrapI64 n)) rest

/-- The minimum of `ModelMinAccumulator` (model_simple_aggregates.rs:393-415, initial value 94). -/
def minState (segments : List Segment) : FVal :=
  segments.foldl (fun m s => FVal.min m (FVal.ofBits32 s.minValue)) f32Max

/-- The maximum of `ModelMaxAccumulator` (model_simple_aggregates.rs:436-458, initial value 114). -/
def maxState (segments : List Segment) : FVal :=
  segments.foldl (fun m s => FVal.max m (FVal.ofBits32 s.maxValue)) f32Min

/-- The sum of `ModelSumAccumulator` (model_simple_aggregates.rs:479-528), `none` for a panic. -/
def sumState : FVal → List Segment → Option FVal
  | sum, [] => some sum
  | sum, s :: rest =>
    match segmentSum s with
    | none => none
    | some x => sumState (FVal.add f64Fmt sum (FVal.convert f64Fmt x)) rest

/-- The count of `ModelAvgAccumulator` (model_simple_aggregates.rs:551-606), `none` for a panic. Its sum is `sumState`. -/
def avgCountState : Nat → List Segment → Option Nat
  | count, [] => some count
  | count, s :: rest =>
    match segmentLen s.startTime s.endTime s.timestamps with
    | none => none
    | some n => avgCountState ((count + n) % 2 ^ 64) rest

/-- Apply a function that may panic to all elements. -/
def mapAll {α β : Type} (f : α → Option β) : List α → Option (List β)
  | [] => some []
  | a :: rest =>
    match f a, mapAll f rest with
    | some b, some bs => some (b :: bs)
    | _, _ => none

/-- Merge numbers with `f`, there are none without partitions. -/
def mergeWith (f : FVal → FVal → FVal) : List FVal → Scalar
  | [] => .null
  | x :: rest => .f32 (rest.foldl f x)

/-- Apache DataFusion merges the states of all partitions and returns the result. The states of MIN and MAX are never NaN and the sign of
zero is not considered. `none` is a panic. -/
def execute (f : ModelFunction) (partitions : List (List Segment)) : Option Scalar :=
  match f with
  | .count =>
    match mapAll (countState 0) partitions with
    | none => none
    | some states => some (.int (states.foldl (fun a n => wrapI64 (a + n)) 0))
  | .min => some (mergeWith FVal.min (partitions.map minState))
  | .max => some (mergeWith FVal.max (partitions.map maxState))
  | .sum =>
    match mapAll (sumState (.fin false 0)) partitions with
    | none => none
    | some [] => some .null
    | some (x :: rest) => some (.f64 ((x :: rest).foldl (FVal.add f64Fmt) (.fin false 0)))
  | .avg =>
    match mapAll (sumState (.fin false 0)) partitions, mapAll (avgCountState 0) partitions with
    | some [], some _ => some .null
    | some (x :: rest), some counts =>
      some (.f64 (FVal.div f64Fmt ((x :: rest).foldl (FVal.add f64Fmt) (.fin false 0))
        (FVal.ofInt f64Fmt (counts.foldl (fun a n => (a + n) % 2 ^ 64) 0 : Nat))))
    | _, _ => none

/-- The result of an operator `AggregateExec` with aggregates of segments. Only `state` is implemented, which is called in mode `Partial`;
`evaluate` and `merge_batch`, which are called in the other modes, are `unreachable!()` (model_simple_aggregates.rs:361-378). -/
def executeNode (node : AggregateNode) (functions : List ModelFunction) (partitions : List (List Segment)) : Option (List Scalar) :=
  match node.mode with
  | .partial_ => mapAll (fun f => execute f partitions) functions
  | _ => none

end ModelarDB.Model.Aggregates
