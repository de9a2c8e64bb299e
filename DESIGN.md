# wax-ml: a Lean 4 model and its theorems

Source: `/repo/src/wax` (read as text, never run).  Model: `lean/Verif/`.

## 1. Layout

| directory | contents |
|---|---|
| `Verif/Base` | arithmetic with NaN/±inf (`Fl`), streaming machines (`Mealy`), list facts |
| `Verif/Model` | the model, function by function; every definition cites file and lines |
| `Verif/Spec`  | small independent specifications (windows, weighted means, calendars, ...) |
| `Verif/Lemmas`| helper lemmas and invariants |
| `Verif/Props` | the property theorems, one file per group, each followed by `example`s showing that its hypotheses are met by a concrete non-trivial case |

## 2. Modelling conventions

* **Streaming module** = `Mealy S I O`: a fresh state and `step : S → I → O × S`.  Haiku `init` returns the
  *initial* values of `get_state`, so a Haiku run starts in the fresh state.  Flax `init` runs `__call__` once and
  returns the mutated variables (confirmed by `flax/modules/buffer_test.py`: "One element added during init").
* **Numbers** = `Fl K`: NaN, -inf, finite `k : K`, +inf, over any linearly ordered field `K` (run at `ℚ` in the
  examples).  IEEE rules for NaN and infinities are modelled; signed zeros are not.  Arithmetic is exact except in
  `Model/Rounded`, `Model/RoundedMasks` (C178–C184, C190–C194), where every operation rounds with a function `R : K → Fl K` (overflow to infinity, subnormals
  included; `Spec/Ieee` defines IEEE round-to-nearest-even for every precision); `R = Fl.fin` gives back the exact model.  Integers whose wrap-around matters (uint32/int32/int64) are modelled with wrap-around.
* **Arrays**: modules that are elementwise (`where`, `+`, `isnan` ...) are modelled on one element; an array is a
  family of independent elements.  Where an axis matters (buffers, masks, covariances, Newton) the array is a
  list/function/matrix.
* **Exceptions** are values (`Except`/`Option`).
* **External calls** (user functions, agents, environments, the PRNG `split`, optax optimisers, regressors) are
  parameters over which the theorems quantify.

## 3. Properties → model → proof

| id | modelled | proof |
|---|---|---|
| C01 | `modules/buffer.py` shift buffer | state after history = padded window; induction on history |
| C02 | flax circular buffer, int32 index | coupling invariant physical↔logical order; negative witness after wrap |
| C03 | Lag (haiku, flax) | corollary of C01 via list indexing |
| C04 | Diff | corollary of C01; telescoping by induction |
| C05 | PctChange = Lag∘Ffill | composition of C03, C06 |
| C06 | Ffill | induction on history |
| C07 | RollingMean | C01 + list sums; bounds from ordered-field lemmas |
| C08 | Counter over `BitVec 32` | induction |
| C09 | HasChanged over arrays of floats/ints/uints/bools | induction |
| C10 | FillNanInf | case analysis over all float classes |
| C11–C13 | ApplyMask, MaskMean, MaskStd, MaskNormalize | lists of pairs (value, mask) |
| C14 | OHLC haiku | state after history = summary of current bar; induction |
| C15 | OHLC flax | simulation on NaN-free streams, negative witness with NaN |
| C16,C17 | EWMA haiku/flax | invariant: mean·W = Σ wᵢxᵢ, closed form by induction |
| C18 | EWMA | invariant: mean in range, weights ≥ 0 |
| C19 | EWMA linear | invariant: old_wt = min(n, com..), mean·n = Σ |
| C20,C21 | numba EWMA | simulation relation; shared-store model for aliasing |
| C22 | EWMVar | invariant var ≥ 0; second-moment identity |
| C23 | EWMCov | elementwise from EWMA; Cauchy–Schwarz/Jensen by invariant |
| C24,C25 | ARMA haiku/flax | history recurrences; negative witness for flax |
| C26 | SNARIMAX | structure of regressors; negative witness for non-interference |
| C27–C29 | encode/decode/less/floor | integer arithmetic with wrap, `omega`/`Int.emod` |
| C30 | LabelEncoder | sorted distinct list, index/lookup inverse |
| C31–C35 | `Stream.merge` with generators as lists | invariant on (delivered, pending, rest) per secondary |
| C36 | trace / access | list indexing |
| C37–C39 | unroll, static_scan, fori | induction on stream |
| C40 | flax init + unroll | equation with fresh-run; negative witness |
| C41 | gym_static_unroll | length theorem; negative witness |
| C42 | vmap lifts | projection commutes with run |
| C43,C44 | UpdateOnEvent / ConditionalComputation | run over filtered stream; induction |
| C45 | streaming_scan | segmentation induction |
| C46 | state machine | induction, `find?` |
| C47 | execution order | loop with arbitrary choice of set iteration order; permutation and topological invariants |
| C48–C50 | ring, downsample, count-min | induction, counting |
| C51 | Newton | `Matrix` algebra, positive definiteness invariant |
| C52,C53 | params partition/merge, optimiser | association lists and nested dictionaries |
| C54–C57 | gym loop, callbacks | fuel-free recursion over env trace; set semantics |
| C58,C59 | debugger, memory tracker | bounded deque lemma |
| C60 | `unroll_stream` as transposition of a list of records; the shared list of `skip_first` | list induction; negative witness |
| C61 | `transform_batch_with_state(_static)`, `data_unroll` | equation with unroll under a given key; negative witness |
| C62–C64 | `ConditionalStateUpdate`, `HierarchicalState`, `transform.split/combine_variables` | run over filtered stream; fold over declarations; association lists |
| C65–C68 | `HierarchicalStateMachine`, `CompositeStateManager` | permutation invariance, depth recursion with fuel = #states, convexity |
| C69–C71 | `CompressedBuffer` (quantile, memory report), `HierarchicalBuffer` | sorted lists, filtered streams, byte arithmetic |
| C72–C75, C84 | `OnlineOptimizer`, `FuncOptimizer`, `OnlineSupervisedLearner` (Haiku, Flax) | replay induction; optimiser, gradient and model are parameters |
| C76–C78 | `gym_unroll` + `HaikuAgent`/`HaikuEnv`/`Record`; Flax `GymFeedback` | simulation between the loop and the feedback module |
| C79–C83 | change detector, profiler, memory tracker | invariants over all call histories; readings are inputs |
| C85, C86 | dataset → merge → trace/access → unroll, composed | composition of C31–C37; two-run non-interference |
| C87–C90 | `format.py`, `accessors.py` | structural induction over nested outputs; label functions |
| C91–C97 | `streaming_transforms.py`, `state_utils.py`, `vmap.py` as machines over abstract models, optimisers, functions | run induction; independence theorems quantify over all functions |
| C98 | `ewma.py` | the abstract EWMA (Lemmas/EWMA) of combined streams, induction on the stream |
| C99–C106, C108 | the streaming functions of `flax/examples` as machines made of the buffer and EWMA models | state of the composed machine = states of its parts; window and EWMA theorems give the statistics of `Spec/Stats` |
| C107 | the Python loop and `lax.scan` | list induction |
| C109 | `numba/ewma_numba.py` accessor: frames as named columns, state frame reindexed by name | per-column machine, fold over chunks |
| C110 | `modules/update_on_event.py` on Haiku's frame of named states | injectivity of qualified names, list induction |
| C111–C113 | `gym/agent.py`, `gym/callbacks/{callbacks,progressbar,record}.py` over the gym loop of `Model/Gym` | loop induction with a ghost step counter |
| C114, C115 | `testing.py`, `stream.get_dataset_schema`, `utils.get_unique_dtype` | list induction |
| C116–C118 | `flax/examples`: signal processor, scan demos, baseline, predictors under the optimiser | state of the composed machine = states of its parts; EWMA, window and C91 theorems |
| C120–C124, C126 | reports of profiler, tracker and debugger over sessions of operations | session invariant (recordings in force), then statistics against specifications; sharing of the bottleneck list as a flag |
| C125 | trees of objects with identities; assignment to an identity | mutual structural induction: a copy is isolated iff it has no live identity |
| C127–C134 | `flax/visualization/{data_flow_visualizer,interactive_dashboard,bokeh_viz,jupyter_viz}.py`: tracker, animation, dashboard and live plots as sessions of operations (`Model/Flow`) | session invariants by reverse induction; one-step refinement of the dashboard to per-pipeline trackers |
| C135–C142 | `flax/visualization/{computation_graph,nested_graph_viz}.py`: parameter trees as nested dictionaries, extraction, parents, clusters, breadth-first levels, recursive drawing, links, summary (`Model/Viz`) | mutual induction over trees; the hierarchy is shown to be a forest (rank = length of the identifier), levels by layers of the traversal, drawing by unique ancestors |
| C143–C147 | the `axis` argument of the masked modules on arrays of any rank: an array is its shape and its entry at each index, NumPy broadcasting and reductions are functions on those (`Model/Broadcast`) | induction over shapes for broadcasting; each entry of the result is reduced to the one-line model of C12–C13 |
| C148 | construction, cloning, attachment and `setup` of Flax modules (`Model/Lifecycle`): a class is its fields, its hand-written or generated constructor, and the attributes its `setup` assigns | general theorem per kind of constructor, then one instance per class |
| C149–C151 | what the online optimisers accept (`Model/Training`) on top of `Model/Optim` | case analysis of the initialisation; induction over calls for the accepted cases |
| C152–C153 | nested arguments as lists of leaves, cut along the first axis (`Model/Columns`) | the columnar loop refines the list-of-steps model of C37–C39; exact outcome on unequal lengths |
| C154 | `stateful.py` lifts with an explicit key sequence and inner functions that may raise (`Model/Lifts`) | exact characterisation of every successful call: which key each batch element and each step gets |
| C155 | terminal as the list of lines typed; prompt loop, loop over the hooks with KeyboardInterrupt (`Model/Breakpoint`) | exact result of the prompt; refinement to `Debugger.step` of C58 unless the user quits |
| C158–C159 | `computation_graph.py` `_generate_dot_content`, `_create_node_label`, `_get_shape` as texts, Python's `repr` of strings and tuples included (`Model/Dot`); specification: a reader of DOT statements (`Spec/Dot`) | reading back line by line; mutual induction over nested example inputs |
| C160–C166 | `bokeh_viz.py` heatmap and dashboard panels, `_create_text_plot`, `_serialize_value`, parameter controls (`Model/Panels`) on top of the trackers of `Model/Flow` | session invariants; floor arithmetic for the bins; induction over values and shapes |
| C167 | `gym/haiku_agent.py`, `gym/haiku_env.py` as objects with explicit random keys, exceptions and data generator (`Model/Agents`) | induction over histories; simulation under a shift of the key sequence |
| C168–C169 | `profiler.py` `start_step` blocks and `profile_streaming` with exceptions and compilations explicit (`Model/Profiled` over `Model/Reports`) | a block equals a list of recordings; then the session theorems C120/C121 |
| C170–C171 | algebraic laws of the streaming modules of `Model/{Windows,OHLC,EWMA,EWMVar,ARMA}` (changes of units, composition, degenerate parameters; `Props/Laws`) | transport through the specification of each module, or a simulation between the two runs |
| C172–C173 | `computation_graph.py` HTML page and plain text as texts (`Model/Markup`); specification: what a browser shows of a page, and splitting into lines | text lemmas per piece, induction over nodes and edges |
| C174 | dictionaries as cells of a memory, results as references (`Model/Clients`) | the two analyses write the same cell |
| C175 | server of the dashboard with its set of browsers and the messages each operation sends (`Model/Clients`) | session invariant; exact messages at every point of every history |
| C176–C177 | threads as programs of calls; a call is two steps, reading the flag and the work under the lock; a schedule is any list of thread numbers (`Model/Threads`) | linearisation: an invariant relating every reachable state to a sequential history; counterexample when the object is reset while off |
| C178–C184 | EWMA, EWMVar, EWMCov, RollingMean with rounded arithmetic (`Model/Rounded`), IEEE 754 formats (`Spec/Ieee`) | every IEEE format is a rounding with unit roundoff u; coupling invariant between computed and exact state (contraction by 1-alpha absorbs the step error); sign invariant for the variance; induction over summation trees |
| C185 | the backward pass of `jax.grad` through the unrolled EWMA (`Model/Autodiff`) | the trace of one call computes the call; on a regular trace the backward pass is the adjoint of the tangent map (induction over the trace), the tangents are derivatives (Mathlib's `HasDerivAt`); induction over the stream with curves of states |
| C186–C189 | the backward passes of EWMA (`adjust="linear"`), EWMVar, PctChange, MaskStd, MaskNormalize (`Model/Autodiff`) | complete data: as C185; NaN: a NaN cotangent is kept by every later addition, so one step of the backward pass decides; MaskStd: derivative of a sum over the line |
| C190–C194 | numba EWMA, MaskMean, MaskStd, MaskNormalize, PctChange with rounded arithmetic (`Model/Rounded`, `Model/RoundedMasks`) | numba: the coupling invariant of C178, plus the branch `mean == x`; masks: error of a rounded sum in any order (C181) applied to the values and to the squared differences; C193 is refuted by a float32 computation in the kernel with an arbitrary square root routine |
| C195, C196 | EWMA with int32/int64 counters, EWMVar with a float counter (`Model/Counters`) | C195: coupling with the ideal counter through `Int.bmod`; C196: the count is `min n 2^24`, and for `com < 2^18` the smoothing factor is constant from there on (`(1-α)^n < 2^-26` vanishes next to 1) |
| C197 | Flax scopes, `flax_transform_with_state`, `StreamingModuleWrapper`, `make_streaming_compatible` (`Model/Scopes`) | variables as arrays addressed by collection and path; nesting under a name commutes with split, combine and apply; induction on the stream |
| C198 | reverse mode through `RollingMean` and the buffer (`Model/AutodiffMean`) | backward pass from an arbitrary buffer by induction on the stream (prefix sums of the shares); C07 turns the outputs into shares; the loss is affine in each input |
| C199 | reverse mode through `EWMCov` (`Model/AutodiffCov`: outer products, three EWMA backward passes) | C185 generalised to data moving along arbitrary differentiable curves (the products do); product rule over steps and components; NaN absorbs for the negative claims |
| C200 | reverse mode through the Flax `RollingMean` and circular buffer (`Model/AutodiffMean`: gather transposed to scatter-add, overwritten row masked) | simulation: the physical cotangents rotated by the write position are the cotangents of the shifted buffer, for any state; then C198 and C07 |
| C201 | reverse mode through the unrolled `PctChange`: C188's step composed with the backward passes of Ffill and of the lag buffer (`Model/AutodiffPct`) | induction on the stream with the cotangent of the last observed value as invariant; closed form of the outputs (C05) differentiated step by step |
| C202 | reverse mode through `UpdateOnEvent` (`hk.cond`: zeros for the operands not kept) and `ConditionalComputation` (`jnp.where`) around any machine with a pullback (`Model/AutodiffEvents`) | backward induction on the stream; the weights of the held outputs are tied to the outputs by C202_held_weights; instance: RollingMean with C198 |
| C203 | C202 with the backward pass of EWMA (`ewmaPulled`: the sum of the cotangents of `logcom` goes with the cotangent of the state) | zeros pull to zeros by the adjoint of one call (C185), so the wrapper's gradient is C185's at the held weights; derivative by C185 and C202_held_weights |
| C204 | NumPy's unit conversion as a wrapping int64 product, NaT kept (`toNs`); `datetime64_encoder` with its shape errors | `omega` on the wrap: the result is the instant iff it is in range |
| C205 | two modules in a row as a composed step with composed pullbacks (`chain`) | induction over the stream for the chain rule; then C185/C198 on each module, RollingMean being linear and self-dual on every pattern of missing values |
| C206 | backward passes through any readout of a shifted or circular buffer (`Model/AutodiffBuffer`), Lag, Diff, Ffill | induction over the stream from any buffer; circular = shifted buffer rotated by the write position; the loss is affine in each input |
| C207 | modules as `Pulled` backward steps (`Model/AutodiffEvents`, `AutodiffChain`, `AutodiffBuffer`), chained | `TrueGradient`: along every differentiable path of inputs and parameters the outputs have tangents dual to what the backward pass gives; closed under composition by the chain rule C205; each module by induction or by its gradient formula; it implies the derivative along every direction |
| C208 | `updateOnEventGradFrom`, `conditionalGradFrom` (`Model/AutodiffEvents`) around any module or pipeline | outputs and tangents held between events are dual to the weights summed over the steps during which they are held; `TrueGradient` of the pipeline on the inputs at events (all inputs for Flax); `Silent` (no gradient at calls without contribution) closed under composition |
| C209 | `ewmaPull`, `ewmaGrad`, `Pulled.chain` (`Model/Autodiff*`): the backward pass of EWMA with NaN cotangents | abstract interpretation of the backward pass (positions that surely get NaN), sound for every trace by induction; induction on the stream; first visible output of EWMA + C201 |
| C210 | Flax Lag, Diff, RollingMean as `Pulled` modules (`Model/AutodiffFlaxPipes`) | `TrueGradientOn` the lengths below 2^31, closed under composition; each Flax module has the outputs (C03, C04, C07) and the backward pass (C200, C206) of the Haiku one; the derivative by extending the module to all lengths |
| C211 | FuncOptimizer and OnlineOptimizer (`Model/Optim`) with NaN gradients | Invariant over the calls: the parameter has its initial value and the state of the optimiser is `Quiet` at it; without filling, NaN is absorbing; the EWMA, EWMVar and EWMCov cases by C209, C187 and C199 |
| C212 | Flax FuncOptimizer and OnlineOptimizer (`Model/Optim`) with NaN gradients | Induction over the trajectory of parameters and optimiser states of C84; leaves of the merged parameters by C52 |
| C213 | the four optimisers (`Model/Optim`) with plain SGD | `dueStep` is the specification of one step for each kind of gradient; the call is unfolded on an arbitrary reachable state (Haiku) or any state (Flax: parameters not empty, resp. keys without "/" and all trainable) |
| C156–C157 | decorators as functions on objects with optional name, `init`, `apply`, `scan` and a common log (`Model/Decorators`) | induction over the stack |
| C119 | `tree_lag` as a machine over nested trees | mutual structural induction, then run induction |

## 4. Trusted base

* Lean's kernel.  Axioms: every theorem of `Verif/Props` depends on a subset of `propext`, `Classical.choice`,
  `Quot.sound` (checked with `#print axioms`, see `tools/axioms.sh`); none is added, nothing rests on compiled code.
* The reading of the Python code into `Verif/Model` (each definition cites its source).  Nothing was executed.
* The semantics of the libraries, as assumed below.

### 4.1 Assumptions on libraries

* JAX: out-of-range indexing clamps, negative indices count from the end; `lax.cond`/`where` select; `lax.scan` is the
  left fold; `vmap` maps a pure function; integer arithmetic wraps at the dtype's width; no 64-bit mode (int32/uint32).
* Haiku keys (C154): `next_rng_key` raises without a key, `maybe_next_rng_key` returns None, `hk.scan` threads the key sequence
  through the steps, `lift_with_state` runs the initialiser only during initialisation.
* `x[t]` past the end: NumPy raises, JAX clamps (C153); `lax.scan` raises on leaves of different lengths.
* Flax module lifecycle (C148, C96, C46, C62, C63): a hand-written `__init__` is kept and receives only its own keywords;
  `init`/`apply`/`bind` and the adoption of a field clone the module with `parent`/`name`; `__post_init__` is skipped at top
  level, deferred inside a `setup`, and otherwise reads every field; assigning a dataclass field inside `setup` raises.
* `hk.transform(f).init` raises on state; `flax.Module.apply` without `mutable` raises on a write; `jax.value_and_grad`
  raises on a tuple loss; `hk.get_state` in `apply` falls back on its initialiser (C149, C150).
* Haiku `transform_with_state`: `init` returns the *initial* values of `get_state`; Flax `init` runs `__call__` once
  and returns the *mutated* variables.
* PRNG: `jax.random.split` is an arbitrary function; keys are threaded explicitly where the property is about keys
  (C37, C39, C61) and left out in optimisers and gym modules.
* Automatic differentiation: an arbitrary function from parameters and inputs to gradients, except in `Model/Autodiff` (C185–), where
  the backward pass is modelled: the rule of each primitive is the one of `jax/_src/lax/lax.py`, cotangents are added in any order,
  and a cotangent that JAX knows to be zero without computing it is the number 0.
* Floats: `Fl K` (NaN, ±inf, exact finite arithmetic).  Rounding, overflow of finite values, signed zeros, subnormals and
  the float64→float32 conversion are not modelled.  float32 saturation at 2^24 is modelled where it matters (C50).
* Wall clock, process memory, sets' iteration order: inputs or universally quantified choices.
* Threads and locks are modelled in `Model/Threads` and the breakpoint prompt in `Model/Breakpoint` (elsewhere one thread, and a
  breakpoint is always continued); signal handlers, file and network output are not modelled.
* Modules that branch on Python-level counters run outside `jit`.
* xarray: duplicate dims and multi-index frames are not modelled; datetime unit conversion is not modelled.

* **Rounded arithmetic** (C178–C184, C190–C194): the operations are executed as written (no fused multiply-add and no reassociation by XLA, except
  in sums, whose order is left open); comparisons, selections, minima and maxima are exact; `com` is the float obtained from
  `exp(logcom)`; the observation counters are exact; the power routine of `adjust=True` in EWMVar is a hypothesis (`PowOk`),
  met by the correctly rounded power, see `powRounded_ok`; C184 asks for `PowNear` (absolute error at most `4u` on `[0,1]`), met
  by it too (`powRounded_near`).

### 4.2 What is modelled, file by file

The comment of each definition of `Verif/Model/*.lean` gives the lines.  `python3 tools/coverage.py` lists the functions
of `/repo/src/wax` that no definition cites.

| source | model |
|---|---|
| `modules/{buffer,lag,diff,pct_change,ffill,rolling_mean,counter,has_changed}.py` and `flax/modules/` twins | `Model/Windows` |
| `modules/{fill_nan_inf,apply_mask,mask_mean,mask_std,mask_normalize}.py` and twins | `Model/Masks` (one line), `Model/Broadcast` (any rank and axis) |
| `modules/ohlc.py` and twin | `Model/OHLC` |
| `modules/ewma.py`, twin, `numba/ewma_numba.py` | `Model/EWMA` |
| `modules/{ewmvar,ewmcov}.py` and twins | `Model/EWMVar` |
| gradients through `modules/ewma.py` and twin, `modules/{mask_mean,mask_std,pct_change}.py` | `Model/Autodiff` |
| `modules/{arma,snarimax}.py` and twins | `Model/ARMA` |
| `encode.py` | `Model/Encode` |
| `stream.py` | `Model/Stream`, `Model/Pipeline` |
| `unroll.py`, `transform.py`, `stateful.py`, `flax/core/{unroll,transform}.py`, `modules/vmap.py` | `Model/Unroll`, `Model/Patterns`, `Model/Lifts` |
| `modules/update_on_event.py`, `flax/core/streaming_transforms.py` | `Model/Events`, `Model/Transforms` |
| `flax/core/advanced_state_patterns.py` | `Model/Patterns` |
| `flax/modules/compressed_buffer.py` | `Model/Compressed` |
| `optim/newton.py` | `Model/Newton` |
| `modules/{optax_optimizer,online_optimizer,func_optimizer,online_supervised_learner,update_params}.py`, twins, `predicate.py` | `Model/Optim`, `Model/Training` (what is accepted) |
| constructors, fields and `setup` of the Flax modules whose lifecycle is irregular | `Model/Lifecycle` |
| `gym/**`, `modules/gym_feedback.py`, twin | `Model/Gym`; objects with keys and exceptions: `Model/Agents` |
| `flax/debug/{debugger,profiler,memory_tracker}.py` | `Model/Debug`, `Model/Reports` (summaries, recommendations, results, reset, export, conditions), `Model/Snapshots` (copies and sharing), `Model/Breakpoint` (prompt), `Model/Decorators` (stacks), `Model/Threads` (several threads); not modelled: texts of the reports, CPU and thread counts, timestamps |
| `format.py`, `accessors.py` | `Model/Format` |
| `flax/examples/*.py` (the streaming functions), `tree_lag` | `Model/Examples`, `Model/Demos` |
| `numba/ewma_numba.py` accessor | `Model/NumbaFrame` |
| `modules/update_on_event.py` on Haiku's frame | `Model/HaikuState` |
| `testing.py`, `utils.py`, the rest of `gym/callbacks` | `Model/GymExtra` |
| `flax/visualization/{data_flow_visualizer,interactive_dashboard,bokeh_viz,jupyter_viz}.py`: the data they keep and hand to the plotting libraries | `Model/Flow`, `Model/Panels`, `Model/Clients` (browsers) |
| `flax/visualization/{computation_graph,nested_graph_viz}.py`: the graphs, levels, clusters, boxes and links, the DOT text the HTML page and the plain text (not colour maps, matplotlib positions) | `Model/Viz`, `Model/Dot`, `Model/Markup`, `Model/Clients` (returned dictionaries) |

Not modelled: rendering to images, HTML, JavaScript, notebooks and web servers (`flax/visualization` output side),
`datasets/`, `compile.py`, argument-free constructors (`create_*` factories are the constructors they
call), logging.  Constant arrays of dimension ≥ 2 and buffered arrays of dimension ≥ 3 are outside the model of
`access_data`.

## 5. Properties false of the code

A property that the code violates stays in the list with status *partial*: the manifest names the counterexample
theorem and the theorem giving the exact behaviour.  `seeded/` is about edits of the model, not these.

| id | finding |
|---|---|
| C02 | Flax Buffer: the write index is an int32; for maxlen not a power of two the window is wrong after 2^31 writes (exact: C02_flax_buffer_pow2 / _wrap_breaks) |
| C03 | Haiku Lag with return_state: the returned state is the buffer before the update |
| C13 | MaskStd with axis=1 subtracts means along the wrong axis; the Flax version maps NaN to 0 |
| C15 | Flax OHLC: a NaN price poisons high and low until the next reset |
| C20 | numba EWMA differs from EWMA on infinities |
| C21 | numba EWMA overwrites the caller's saved state arrays in place, so a saved state cannot be replayed |
| C22 | EWMVar returns 0 (not NaN) on leading NaN |
| C23 | EWMCov with an initial value can return a negative variance |
| C24 | Haiku ARMA applies the coefficients oldest first |
| C25 | Flax ARMA pushes its AR buffer twice per step (AR(1) is the identity) and its MA window contains the current noise |
| C26 | SNARIMAX (both) feeds the regressor with the value it must forecast |
| C28 | less: dates on both sides of 1970 compare the wrong way |
| C29 | floor_datetime wraps below the first representable midnight (NaT included) |
| C35 | start_dataset_stream yields the first observation twice: a buffered stream shows it twice until the buffer is full |
| C36 | access_data: array variables without time dimension are read at step*i; a buffered 2-D variable's mask is broadcast along the wrong axis, and with one feature the result is an m×m matrix (C36_buffered_one_feature_partial) |
| C39 | dynamic_unroll_fori_loop uses one key for all steps; a resumed unroll repeats keys |
| C40 | Flax unroll consumes the first element twice (once in init) |
| C41 | gym_static_unroll loses the first output and fails on a single observation |
| C45 | streaming_scan: the default state has already seen x[0], also after each reset; preserve_state=False disables resets; a key without a state raises |
| C46 | StreamingStateMachine: a transition to an undeclared state fails one call later |
| C48 | get_relevant_states(top_k) returns the oldest k states with uniform weights |
| C49 | the downsampling buffer returns its physical (rotated) order on steps that do not record |
| C50 | the sketch output is a per-bucket minimum, no estimate of any item; counts saturate at 2^24; more than four hashes repeat the fourth |
| C52 | Flax merge is shallow: frozen leaves that share a top-level key with a trainable leaf are deleted; keys containing "/" are restructured |
| C53 | infinite gradients become ±max float in OnlineOptimizer (0 in FuncOptimizer) |
| C57 | entering the scope of an already active callback deactivates it at exit |
| C58 | clear_history does not reset the step counter; performance data is unbounded |
| C60 | unroll_stream(skip_first=True) shares one list between all leaves |
| C61 | transform_batch_with_state ignores the key given to apply |
| C62 | ConditionalStateUpdate: reset_on_condition has no effect |
| C63 | HierarchicalState silently drops dependencies declared later |
| C64 | a state collection called "params" would replace the parameters |
| C65 | HierarchicalStateMachine: dependencies never influence the outputs |
| C69 | the quantile buffer counts its fill value as data |
| C70 | the memory report says 0 bytes for downsample with factor > maxlen; `HierarchicalBuffer.get_total_memory_usage` reports 8 * maxlen for a sketching level, which stores 4 * 1024 counters whatever `maxlen` is |
| C71 | hierarchical levels without ewma show 0 between updates |
| C74 | Flax OnlineOptimizer never advances the model's state |
| C75 | Flax OnlineSupervisedLearner never learns |
| C76 | the action recorded by Record is one step late with respect to GymFeedback's |
| C78 | Flax GymFeedback has no feedback |
| C81 | profile_streaming records each call twice, so its mean duration is halved; the first memory delta is the whole RSS; finalize() shares the list that reset() clears |
| C82 | the leak rate is growth times interval instead of divided; the tracker's hook is never installed |
| C87 | a pair of frames with default dims raises; dims given as nested tuples become dims named by dictionary keys; a bare string uses a substring test |
| C88 | a pair of scalars is mislabelled when #dates = #columns; StreamDataset.apply with its default format_dims always raises; skip_first with formatting always raises |
| C89 | when two variables have the same leading shape the order of the variables decides |
| C91, C92 | streaming_optimizer: the returned prediction is never scaled by what was learnt; with two positional arguments the second one is the target, a third one is ignored (ensemble_predictor(price, volume, target) trains on the volume) |
| C93 | apply_with_state returns no parameters: feeding its variables back fails when the module has some; other collections raise |
| C94 | StreamingScan has no state; a data-dependent reset raises while tracing |
| C96 | hierarchical_composition and state_machine never call the decorated function; conditional_update's wrapper is not compact, so a module inside raises |
| C101 | regime_aware_processor: both branches share the module EWMA_0, whose smoothing is the first call's |
| C102 | before the first event is_breakout is True (a boolean cache filled with NaN) |
| C105 | high_price_signal and volume_based_signal return a Python bool: their init raises AttributeError |
| C106 | portfolio_manager: the states follow the order of the dictionary, not the names |
| C108 | cumulative_returns_with_reset accumulates nothing, and is NaN on the prices that request a reset |
| C109 | df.wax.ewm().mean(state): a column that was not in the saved state stays NaN for ever (its observation count is NaN) |
| C110 | a state name with a slash can collide with a state of a nested module: the restore then overwrites it |
| C111 | the callbacks given to Agent.unroll replace the active ones, and a Callback object raises TypeError |
| C113 | get_outputs raises when nothing was recorded |
| C114 | assert_tree_all_close broadcasts (lengths are not compared), is not symmetric and never accepts NaN |
| C117 | the buffers of the demos are filled with 0 (100): buffer_mean and buffer_std are biased during the first n steps |
| C118 | ensemble_predictor ignores its target; the predictions of both predictors ignore what was learnt |
| C121 | a function wrapped with profile_streaming whose calls all take the same time is always reported as highly variable; constant memory above 100 MB is reported as high allocation; numpy inputs have size 0 |
| C124 | the performance monitor uses the last measured duration: untimed steps after a slow one keep alerting |
| C125 | hook events share everything below the outermost container with the live state; numpy arrays are shared with the history |
| C126 | ProfileResult.bottlenecks is the profiler's own list |
| C128 | DataFlowTracker: track_inputs, track_outputs, track_states and track_gradients are never read |
| C129 | get_recent_data(0) returns the whole history (Python slice [-0:]) |
| C130 | create_flow_animation never shows the last step (int(frame/frames*max) < max); an exception while drawing leaves the tracker with a truncated history |
| C131 | the flow rate never covers the last point; ten points give no rate |
| C132 | re-registering a pipeline resets its tracker but not its metrics |
| C133 | BokehStreamingPlot with max_points = 0 keeps everything; a second Plotly trace with the same name never gets data |
| C134 | a stage whose name contains " Data" is never animated |
| C135 | a top-level module called `main` loses its node to the function's |
| C136 | the computation graph of a Flax function never has an edge: the search stops at a module with parameters, and containers without parameters get no node |
| C137, C141 | a module whose name is that of a cluster (`cluster_ewma_0`) becomes its own parent; it and the other members get no level and are not drawn |
| C144 | MaskStd with axis=k>0 broadcasts the lines' means on the wrong axes: a matrix with axis=1 is refused unless square (or of one row), and a square one is centred with the wrong rows' means |
| C145, C147 | MaskNormalize (both) with axis=1 divides columns by the rows' deviations; an r × 1 column becomes an r × r matrix |
| C148 | HierarchicalState, ConditionalStateUpdate, StreamingStateMachine have a hand-written `__init__` without `parent`/`name`: `init`/`apply` raise TypeError, creation in a compact method raises AttributeError (so the three decorators always raise); they work only when created in the `setup` of another module |
| C148 | Flax OnlineOptimizer and UpdateParams assign a dataclass field in `setup` when the predicate is None: the default configuration always raises |
| C149 | Haiku FuncOptimizer and OnlineSupervisedLearner refuse functions with state (`hk.transform` in get_init_params); params_predicate=None raises |
| C150 | Flax OnlineOptimizer: stateful Flax modules raise, plain functions returning (loss, aux) raise, plain stateful functions restart at every call |
| C151 | Flax FuncOptimizer hands the collection name to the predicate instead of the module name |
| C153 | static_scan follows the length of the first leaf (longer leaves cut, shorter JAX leaves repeated) where lax.scan raises; with xs=None it always raises |
| C157 | debug_streaming / profile_streaming / track_memory_usage raise AttributeError without module_name on any transform (no `__name__`), and the wrappers have no `scan` |
| C159 | exporting the graph of a function analysed on a dictionary having a non-empty dictionary among its values writes unescaped double quotes inside a DOT label (Python's `repr` switches quotes), so the label is cut and the statement is malformed |
| C112 | a ProgressBar used for a second gym_unroll keeps its closed tqdm bar, which ignores updates: only the first unroll is shown |
| C168 | JIT tracking never counts anything: the hook is defined but not installed, and `profile_streaming` never marks its steps |
| C169 | `profile_streaming` records a returning call twice (once with duration 0): step count doubled, average halved, minimum 0 |
| C163 | the performance and correlation panels of the Bokeh dashboard plot random numbers: nothing recorded has any influence except the number of steps; the time series panel shows Python numbers only, never JAX arrays (C161) |
| C146 | Flax ApplyMask broadcasts masks of the wrong shape (the result may be longer than the data); Flax MaskMean(axis=1) cannot use the per-column mask ApplyMask(axis=1) is for; Flax MaskStd(axis=1) puts the mean's new axis last, which is wrong from rank 3 on |
| C138 | nesting comes from string prefixes of identifiers (`norm_1` inside `norm`), never from containment |
| C139 | Cytoscape element identifiers may clash (edge `a`→`a_b` and node `a_a_b`) |
| C172 | the HTML page does not escape names: a node named `<lambda>` is shown without its name |
| C174 | HierarchicalGraphAnalyzer returns its own `hierarchy` dictionary: the next analysis changes results returned before |
| C175 | the web dashboard ignores subscriptions: every browser gets every update |
| C176 | `enabled` is read outside the lock: after `disable(); reset()` a recording started before can still arrive |
| C177 | generate_memory_report reads the leaks outside the lock: critical leaks may be counted and none detailed |
| C179 (note) | EWMVar with adjust=True and com so large that `1 - alpha` rounds to 1 (com = 2^25 in float32): the adjusted smoothing factor is alpha/0 and every observed output is NaN |
| C180 | in float32 the Haiku EWMA of the constant 0.1 drifts (0.1 → 13421772/2^27 with com = 2); only the numba version, which skips the update when the value equals the mean, keeps constants |
| C183 | in float32 EWMCov(x, x) of the single observation 7 with com = 2, adjust=False is -1/131072 (the weighted mean of one value is not that value), of the constant 3 with adjust=True -1/1048576 at the fifth step |
| C186 | with adjust="linear" the gradient of logcom through EWMA is NaN once a gap has brought the weight to 0 (stream 1, NaN, 4): the next call divides by the zero weight in a discarded branch |
| C187 | the gradient of logcom through EWMVar is NaN as soon as one value is missing (adjust True or False), and the gradient of a missing value is NaN in every mode: `x - mean` is not protected as it is in EWMA |
| C188 | PctChange returns 0 for a missing value after an observed one, and gives NaN as the gradient of the observed one |
| C189 | MaskNormalize of a line whose standard deviation is 0 returns zeros and gives NaN for every gradient |
| C193 | MaskNormalize of constant data: seven values 0.1 in float32 give numbers above 65536 instead of 0 (the computed mean is one unit off, so the variance is not 0 and the standard deviation is `sqrt(eps) = 1e-6`) |
| C195 | EWMA with `min_periods >= 1` (Haiku and Flax): the int32 observation counter wraps, so observations number 2^31 to 2^32 - 1 all give NaN; in the numba EWMA the int64 counter wraps after 2^63, even without `min_periods` |
| C199 | where a component of x is missing, the gradient of every component of y at that step is NaN (0 * NaN through jnp.outer); a series that starts late gives a NaN parameter gradient even if the loss ignores the missing outputs; in general (C199_late_series_*_partial): as soon as a component of y has had no value at a step where the mean of a component of x is differentiated |
| C201 | the gradient of the first input of PctChange is NaN whatever the loss (0 / NaN at the first step), and that of a value followed by a missing one too (0 * NaN) |
| C202 | UpdateOnEvent(PctChange): an input ignored by the wrapper (no event) at the beginning of the stream has a NaN gradient, because the untaken branch of the quotient is still differentiated (C202_pct_change_leak) |
| C204 | encode_datetime of a date after April 2262 or before September 1677 succeeds and decodes as another date (New Year 2500 as 14 June 1915: C204_far_date_wrong); the same for every datetime64 unit coarser than the nanosecond |
| — | read only, not modelled: jupyter's "Node Depth" colour is the number of connections |
| C209 | the gradient of `logcom` through `PctChange()(EWMA(adjust=False)(x))` is NaN on every stream: the cotangent of the first visible output of the EWMA is NaN (C201) and reaches the parameter, even with weight 0 |
