import json
P=[]
def p(title, statement, quantifier, why, anchors):
    P.append(dict(id="C%02d"%(len(P)+1), title=title, statement=statement, quantifier=quantifier, why_tests_cant=why, anchors=anchors))
W="src/wax/"
p("Buffer is a sliding window",
 "After any sequence of n>=1 calls, wax.modules.Buffer(maxlen, fill_value) returns exactly the last maxlen inputs, oldest first, left-padded with fill_value when fewer than maxlen inputs were seen; with return_state=True the reported len_buffer is min(n,maxlen) and i_start is maxlen-len_buffer, so buffer[i_start:] is exactly the recorded data.",
 "every maxlen>=1, every fill value, every finite input stream, every prefix of it",
 "The window contents depend on the whole call history and maxlen; tests fix a few lengths.",
 [W+"modules/buffer.py:buffer_fn", W+"modules/buffer.py:Buffer"])
p("Flax circular Buffer refines the Haiku shift Buffer",
 "For the same fresh state and the same input stream, the Flax Buffer (O(1) circular write, int32 write index) returns at each step the same array as the Haiku Buffer, for as long as fewer than 2^31 items have been written.  (Beyond 2^31 writes the int32 index wraps and the claim is false in general.)",
 "every maxlen with 1<=maxlen<2^31, fill value, and stream",
 "Needs an inductive coupling invariant between two representations; the failing histories have more than 2 billion steps.",
 [W+"flax/modules/buffer.py:Buffer", W+"modules/buffer.py:Buffer"])
p("Lag is an exact delay",
 "Lag(k) returns at step t (0-based) the input given at step t-k, and fill_value when t<k; k=0 is the identity.  Haiku and Flax agree.",
 "every lag k>=0, fill value, stream and step",
 "Holds for every lag and every stream position.",
 [W+"modules/lag.py:Lag", W+"flax/modules/lag.py:Lag"])
p("Diff is the first difference",
 "Diff returns NaN at the first step and x[t]-x[t-1] (IEEE NaN/inf rules) afterwards; hence on finite streams the running sum of the outputs after the first telescopes to x[t]-x[0].",
 "every stream and step",
 "Universally quantified over streams; telescoping is inductive.",
 [W+"modules/diff.py:Diff", W+"flax/modules/diff.py:Diff"])
p("PctChange with pad uses the last valid prior value",
 "PctChange(fill_method in {ffill,pad}) returns at step t x[t]/p-1 where p is the most recent non-NaN input strictly before t (NaN if none); with fillna_zero a NaN input with an existing p yields 0; without it NaN.  On NaN-free, zero-free streams compounding (1+output) recovers x[t]/x[0].",
 "every stream with arbitrary NaN placement, every step",
 "NaN placement patterns are unbounded.",
 [W+"modules/pct_change.py:PctChange", W+"flax/modules/pct_change.py:PctChange"])
p("Ffill returns the latest valid value",
 "Ffill returns at step t the most recent non-NaN input among x[0..t] and NaN exactly when every input so far is NaN; it never looks ahead and is idempotent (Ffill after Ffill = Ffill).",
 "every stream and step", "Unbounded runs of NaN.", [W+"modules/ffill.py:Ffill", W+"flax/modules/ffill.py:Ffill"])
p("RollingMean is the NaN-skipping window mean",
 "RollingMean(horizon, min_periods) returns at step t the mean of the non-NaN values among the last horizon inputs when at least max(min_periods,1) of them are present, NaN otherwise; the result always lies between the min and max of those values.",
 "every horizon>=1, min_periods, stream with NaNs and step", "Depends on the window content for all histories.",
 [W+"modules/rolling_mean.py:RollingMean", W+"flax/modules/rolling_mean.py:RollingMean"])
p("Counter counts calls modulo 2^32",
 "The n-th call of Counter returns n mod 2^32 (uint32 wrap-around): counts are exact and strictly increasing up to 2^32-1 calls and then wrap to 0.",
 "every number of calls", "Wrap-around needs 4 billion calls.", [W+"modules/counter.py:Counter", W+"flax/modules/counter.py:Counter"])
p("HasChanged detects exactly the changes",
 "From the second step on, HasChanged returns False exactly when the input equals the previous input elementwise under IEEE equality (so any NaN element reports a change at every step); at the first step it returns False exactly when all elements equal the dtype's missing value (so never for floats).",
 "every dtype class, stream and step", "All pairs of successive values incl. NaN.", [W+"modules/has_changed.py:HasChanged", W+"stream.py:DTYPE_INIT_VALUES"])
p("FillNanInf removes all non-finite values",
 "FillNanInf(fill) returns every finite entry unchanged and fill for NaN, +inf and -inf; with a finite fill its output is entirely finite and it is idempotent.",
 "every array and fill value", "All float classes at all positions.", [W+"modules/fill_nan_inf.py:FillNanInf"])
p("ApplyMask selects or fills",
 "ApplyMask returns x where the mask is true and mask_value elsewhere, with mask broadcast along the chosen axis; it raises ValueError for an axis other than None/0/1 and for a shape mismatch, and otherwise the result does not depend on x at masked-out positions.",
 "every array, mask, axis and mask value", "All shapes and masks, including the rejected ones.", [W+"modules/apply_mask.py:ApplyMask"])
p("MaskMean ignores masked-out entries",
 "MaskMean over axis None returns (sum of unmasked entries, NaN counted as 0)/(number of unmasked entries), is independent of every masked-out value, is NaN when nothing is unmasked, and on NaN-free unmasked data is their arithmetic mean and lies within their range.",
 "every array and mask", "All masks and contents.", [W+"modules/mask_mean.py:MaskMean", W+"flax/modules/mask_mean.py:MaskMean"])
p("MaskStd is a masked second moment",
 "MaskStd's squared output is eps + the masked mean of squared deviations when that variance is positive, exactly 0 when it is 0; independent of masked-out values; invariant under translation of the unmasked values when not assume_centered.",
 "every array, mask and shift", "All contents.", [W+"modules/mask_std.py:MaskStd", W+"modules/mask_normalize.py:MaskNormalize"])
p("Haiku OHLC summarises the current bar",
 "At every step OHLC's OPEN/CLOSE/HIGH/LOW are the first/last/maximum/minimum of the non-NaN prices received since (and including) the last reset step, all NaN if there is none; therefore LOW<=OPEN<=HIGH and LOW<=CLOSE<=HIGH always.",
 "every price stream with NaNs and every reset pattern", "Unbounded bars and reset patterns.", [W+"modules/ohlc.py:OHLC"])
p("Flax OHLC agrees with Haiku OHLC",
 "On the same price stream and reset pattern, Flax OHLC and Haiku OHLC return the same bars.  (True for NaN-free prices; false once a NaN price occurs.)",
 "every price stream and reset pattern", "Divergence depends on the history of NaN and resets.", [W+"flax/modules/ohlc.py:OHLC", W+"modules/ohlc.py:OHLC"])
p("EWMA adjust=True is the exponentially weighted mean",
 "With adjust=True and 0<alpha<1, after any stream EWMA's output is the weighted mean of the non-NaN inputs where an input k positions ago weighs (1-alpha)^k; k counts all steps when ignore_na=False and only observed steps when ignore_na=True.  It is NaN until the first observation, and a NaN input returns the previous mean.",
 "every alpha in (0,1), both ignore_na modes, every stream with NaNs", "Closed form over unbounded histories.", [W+"modules/ewma.py:EWMA", W+"flax/modules/ewma.py:EWMA"])
p("EWMA adjust=False is the recursive exponential filter",
 "With adjust=False EWMA starts at the first non-NaN input and then, on gap-free data, satisfies y[t]=(1-alpha)y[t-1]+alpha x[t]; with NaN gaps of length g and ignore_na=False the old value's weight is (1-alpha)^(g+1) renormalised against alpha; with ignore_na=True gaps are invisible.",
 "every alpha in (0,1), both ignore_na modes, every stream with NaNs", "All gap patterns.", [W+"modules/ewma.py:EWMA"])
p("EWMA stays in the range of its data",
 "In every mode (adjust True, False, linear; both ignore_na) every non-NaN EWMA output lies between the minimum and the maximum of the non-NaN inputs seen so far (and initial_value when given); min_periods only turns outputs into NaN and does so exactly while fewer than min_periods observations were seen.",
 "every mode, alpha in (0,1), initial value, min_periods, stream", "An invariant over all histories.", [W+"modules/ewma.py:EWMA"])
p("EWMA linear adjustment is the plain mean at start",
 "With adjust='linear' (ignore_na=True) and com >= n-1, after n observations the output is the plain arithmetic mean of those n observations; once more than com observations were seen it is a filter with constant weights.",
 "every com>=0, stream, n", "All n and com.", [W+"modules/ewma.py:EWMA"])
p("Numba EWMA equals JAX EWMA",
 "For the same com, adjust, ignore_na, min_periods and column, the numba EWMA returns the same outputs as the JAX EWMA module for any stream, including NaNs.",
 "every configuration with com>0 and every stream", "Two different recurrences must agree on all histories.", [W+"numba/ewma_numba.py:ewma", W+"modules/ewma.py:EWMA"])
p("Numba EWMA can be resumed without mutating saved state",
 "Running the numba EWMA on a stream, and then on the rest with the returned state, gives the same as one run; and a call does not change the state object the caller passed in.",
 "every split of every stream", "All splits; aliasing is invisible to value tests.", [W+"numba/ewma_numba.py:ewma"])
p("EWMVar is a non-negative weighted variance",
 "Every EWMVar variance output is >= 0, it is 0 on constant streams, and for adjust=False it equals the exponentially weighted second moment minus squared mean of the same weights.",
 "every alpha in (0,1), stream", "Invariant over all histories.", [W+"modules/ewmvar.py:EWMVar"])
p("EWMCov is EWMA of products minus product of EWMAs",
 "EWMCov(x,y) outputs a matrix with EWMCov(x,y) = EWMCov(y,x) transposed; EWMCov(x,x) is symmetric with non-negative diagonal on NaN-free streams.",
 "every alpha, stream, dimension", "All dimensions and histories.", [W+"modules/ewmcov.py:EWMCov"])
p("Haiku ARMA satisfies its recurrence",
 "At each step ARMA(alpha,beta) returns eps[t] + sum_j beta-weighted past eps + sum_i alpha-weighted past outputs, with values before the start equal to 0; the last coefficient multiplies the most recent value.",
 "every coefficient vectors with length>=1, every finite innovation stream", "Unbounded recursion.", [W+"modules/arma.py:ARMA"])
p("Flax ARMA satisfies the documented recurrence",
 "Flax ARMA returns y[t]=sum_i alpha_i y[t-i]+sum_j beta_j eps[t-j]+eps[t] as documented.  (False: its AR buffer is pushed twice per step.)",
 "every coefficients and stream", "Interleaving only visible over history.", [W+"flax/modules/arma.py:ARMA"])
p("SNARIMAX is a one-step-ahead forecaster",
 "The prediction SNARIMAX returns for time t does not depend on the target y[t] revealed at t (no look-ahead).  (False of the code: the AR regressors contain y[t] itself.)  The MA regressors are the last q prediction errors strictly before t, and unsupported orders are rejected.",
 "every orders p,q, regressor and stream", "Non-interference over all pairs of streams.", [W+"modules/snarimax.py:SNARIMAX", W+"flax/modules/snarimax.py"])
p("int64 encoding round-trips",
 "decode_int64(encode_int64(s)) = s for every int64 s (negative included), both halves are uint32, encoding is injective, and int64 is the exact domain; datetime64/Timestamp encoding round-trips through it.",
 "every 64-bit integer", "2^64 inputs.", [W+"encode.py:encode_int64", W+"encode.py:decode_int64"])
p("Encoded dates compare like dates",
 "less(encode a, encode b) holds iff a<b.  (True when a and b have the same sign, e.g. all dates after 1970; false across the epoch.)",
 "every pair of int64 values", "2^128 pairs.", [W+"encode.py:less"])
p("Flooring encoded dates to the day",
 "floor_datetime/floor_jax_datekey return the greatest multiple of one day that is <= the argument, so it is idempotent, monotone and within one day of the argument; only unit 'day' is supported.",
 "every timestamp", "All timestamps, including pre-epoch.", [W+"encode.py:floor_datetime", W+"encode.py:floor_jax_datekey"])
p("String and dataset encoders round-trip",
 "Decoding the encoded array gives back the original labels in the original shape; codes are < number of distinct labels and order-isomorphic to label order.",
 "every array of labels", "All label multisets.", [W+"encode.py:string_encoder", W+"encode.py:encode_dataset"])
p("Stream merge is causal",
 "Every secondary observation delivered by Stream.merge at a local time t has a timestamp strictly before the (embedded) local time; nothing from the future is ever delivered, whatever the speeds of the streams.",
 "every local stream, every set of secondary streams with sorted times, every embedding map", "All interleavings of clocks.", [W+"stream.py:Stream.merge", W+"stream.py:timestamp_is_before_local"])
p("Stream merge emits one record per local time",
 "Stream.merge yields exactly one output per local observation, in order, and stops exactly when the local stream stops, no matter when secondary streams are exhausted.",
 "every set of streams", "All exhaustion orders.", [W+"stream.py:Stream.merge", W+"stream.py:Stream.start_dataset_stream"])
p("Forward-filled secondary streams are fresh",
 "A forward-filled secondary stream shows, at each local time, its latest observation strictly before the embedded local time, and the missing value if there is none yet - also after the secondary stream is exhausted.",
 "every sorted secondary stream and every non-decreasing local clock", "All relative speeds.", [W+"stream.py:Stream.merge"])
p("Non-forward-filled streams deliver each batch once",
 "A secondary stream without ffill shows a new value only at local steps at which new observations became available since the previous local step, and the missing value otherwise.",
 "every sorted secondary stream and local clock", "All relative speeds.", [W+"stream.py:Stream.merge"])
p("Buffered secondary streams show the latest distinct observations",
 "A buffered secondary stream shows the last maxlen observations (each once) strictly before the local time, left padded with missing values.  (False of the code: the first observation is recorded twice, because start_dataset_stream yields step 0 twice.)",
 "every buffer size, stream and clock", "History dependent.", [W+"stream.py:Stream.merge", W+"stream.py:tree_buffer_transform", W+"stream.py:Stream.start_dataset_stream"])
p("Tracing then accessing reads the same data",
 "access_data with the index produced by tracing returns at each step the value the un-traced stream would have delivered, and the dtype's missing value when the index is negative.",
 "every dataset variable and step", "All positions.", [W+"stream.py:access_data", W+"stream.py:get_dataset_index", W+"stream.py:np_select_item"])
p("Unroll equals step-by-step application and can be resumed",
 "Unrolling a transformed function over xs++ys equals unrolling over xs, then over ys from the returned final state (rng=None); outputs have one entry per input; outputs at step t depend only on inputs up to t.",
 "every step function, state, stream and split point", "All functions and splits.", [W+"unroll.py:unroll_transform_with_state", W+"unroll.py:unroll"])
p("Static and dynamic unroll agree",
 "dynamic=True (lax.scan) and dynamic=False (python loop) return the same outputs and final state on every non-empty sequence; on an empty sequence the static version raises; skip_first=True equals dropping the first element.",
 "every step function, carry and stream, including empty", "All functions and streams.", [W+"unroll.py:static_scan", W+"unroll.py:iter_first_axis"])
p("Each unroll step sees a fresh key",
 "With an rng key, unroll gives step t the key obtained by splitting t+1 times (the same chain regardless of the inputs), so changing inputs never changes the keys; dynamic_unroll_fori_loop in contrast hands the same key to all steps and agrees with unroll exactly on functions ignoring rng.",
 "every split function, key and stream", "All step counts.", [W+"unroll.py:unroll_transform_with_state", W+"unroll.py:dynamic_unroll_fori_loop"])
p("Flax unroll equals step-by-step application from a fresh module",
 "flax_unroll over xs returns what a fresh module returns when fed xs one by one.  (False of the code: flax init already consumes xs[0], so the first element is consumed twice; what holds: the outputs are those of a fresh module on x0,x0,x1,... without the first; with skip_first=True they are exactly the fresh module's outputs at steps 1...)",
 "every module and stream", "History dependent.", [W+"flax/core/unroll.py:flax_unroll_transform", W+"flax/core/transform.py:flax_transform_with_state"])
p("gym_static_unroll returns one output per observation",
 "gym_static_unroll(skip_first=False) returns one output per generated observation.  (False of the code: the first output is computed, the state advances, but it is never stored.)",
 "every function and data generator", "All lengths.", [W+"unroll.py:gym_static_unroll"])
p("Batched and vmapped modules are independent per batch element",
 "VMap / vmap_lift_with_state: output and state at batch index b depend only on input and state at b and equal those of the unbatched module run alone on that index.",
 "every module, batch size, index, history", "Non-interference across batch for all histories.", [W+"modules/vmap.py:VMap", W+"stateful.py:vmap_lift_with_state"])
p("UpdateOnEvent freezes the module between events",
 "Haiku UpdateOnEvent: at every step the output and the inner state equal those of the inner module run only on the inputs at event steps; before the first event the output is initial_output_value.",
 "every inner module, event pattern and stream", "All event patterns.", [W+"modules/update_on_event.py:UpdateOnEvent"])
p("Flax conditional computation caches outputs only",
 "Flax ConditionalComputation returns at each step the output computed at the last event step, the initial value before the first, while the inner module's state advances on every step.",
 "every module, event pattern, stream", "All event patterns.", [W+"flax/core/streaming_transforms.py:ConditionalComputation"])
p("streaming_scan with resets restarts segments",
 "With reset_on and preserve_state, the outputs after a reset element are those of the function started from the initial state on the rest of the stream: the sequence is processed as independent segments each ending with (and including) its reset element.",
 "every function, stream and reset predicate", "All segmentations.", [W+"flax/core/streaming_transforms.py:streaming_scan"])
p("The streaming state machine follows its transition table",
 "StreamingStateMachine's next state is the target of the first transition (in declaration order) whose condition holds, and stays put when none does; it never leaves the set of declared states when the targets are declared.",
 "every state table, condition set and input history", "All histories.", [W+"flax/core/streaming_transforms.py:StreamingStateMachine"])
p("Hierarchical execution order is a dependency-respecting permutation",
 "get_execution_order returns every active state exactly once, for any dependency relation (including cyclic), and for acyclic dependencies every state comes after all of its active dependencies.",
 "every finite state set and dependency relation, any set iteration order", "All graphs and hash orders.", [W+"flax/core/advanced_state_patterns.py:HierarchicalStateMachine.get_execution_order"])
p("Attention history is a bounded ring",
 "AttentionBasedStateSelector keeps the latest min(n, memory_size) entries oldest-first.",
 "every memory size and history", "All histories.", [W+"flax/core/advanced_state_patterns.py:AttentionBasedStateSelector"])
p("Downsampling buffer keeps every factor-th sample",
 "CompressedBuffer(downsample) records exactly the inputs at steps t with t mod factor = 0 and its storage never exceeds max(1, maxlen//factor).",
 "every factor, maxlen, stream", "All histories.", [W+"flax/modules/compressed_buffer.py:CompressedBuffer"])
p("Count-min sketch never undercounts",
 "Each counter row of the sketch sums to the number of items seen, and for any item the minimum over the rows of its own buckets is at least its true frequency.",
 "every stream and hash parameters", "All streams.", [W+"flax/modules/compressed_buffer.py:CompressedBuffer"])
p("Newton preconditioner is the exact inverse",
 "After any sequence of gradients the Newton optimiser's matrix equals the inverse of eps*I + sum of g g^T, the Sherman-Morrison denominator is always >= 1, and the update is that inverse applied to the gradient.",
 "every dimension, eps>0, gradient sequence", "All histories; linear algebra identity.", [W+"optim/newton.py:sherman_morrison", W+"optim/newton.py:newton"])
p("Parameter partition and merge lose nothing",
 "Splitting parameters by a trainable predicate and merging them back gives the original parameters; the optimiser changes trainable leaves only.  (Flax variant: false for nested dictionaries, the merge is shallow.)",
 "every parameter tree and predicate", "All trees.", [W+"modules/update_params.py", W+"modules/online_optimizer.py", W+"flax/modules/update_params.py", W+"flax/modules/online_optimizer.py"])
p("OnlineOptimizer never feeds NaN gradients",
 "NaN/inf gradients are replaced by 0 before reaching the optimiser; the step counter equals the number of calls; projection is applied to every parameter produced.",
 "every gradient stream", "All histories.", [W+"modules/online_optimizer.py:OnlineOptimizer"])
p("Gym loop drives agent, env and callbacks consistently",
 "gym_unroll performs, for each step, exactly one action then one env step; every on_step callback sees every step even when another requests stop; the loop ends at the first step where the env or a callback says done; every callback's on_train_end runs once.",
 "every env, agent, callback list", "All interleavings of done signals.", [W+"gym/gym_unroll.py:gym_unroll"])
p("Gym feedback is causal",
 "GymFeedback passes the previous action (never the current one) to the environment: reward and observation at t are functions of raw observations up to t and actions before t.",
 "every agent, env and stream", "Non-interference.", [W+"modules/gym_feedback.py:GymFeedback"])
p("Stop callback stops at its bound",
 "Stop(n) asks to stop for the first time at the n-th on_step call counted over its whole lifetime (n>=1), so the loop runs at most n steps on a fresh Stop.",
 "every n and loop", "All n.", [W+"gym/callbacks/stop.py:Stop", W+"gym/callbacks/record.py:Record"])
p("Callback scoping restores the active set",
 "Exiting local_callbacks restores exactly the previous active callbacks, also on exceptions; exiting add_callbacks removes what it added.  (add_callbacks restoring the previous set is false when a callback was already active.)",
 "every nesting of scopes and every registered set", "All nestings.", [W+"gym/callbacks/callbacks.py:add_callbacks", W+"gym/callbacks/callbacks.py:local_callbacks"])
p("Debugger observes without interfering and keeps bounded history",
 "debug_streaming returns the wrapped function's results unchanged; the state history keeps the last min(n,max_history) steps and hooks keep the last max_events events while hit counts count all; a disabled debugger records nothing.",
 "every function, hook set and call history", "All histories.", [W+"flax/debug/debugger.py:StreamingDebugger", W+"flax/debug/debugger.py:DebugHook"])
p("Memory tracker samples on its interval",
 "take_snapshot stores a snapshot at exactly the calls whose 1-based index is a multiple of the interval, or forced, and keeps at most max_snapshots latest ones.",
 "every interval, call history", "All histories.", [W+"flax/debug/memory_tracker.py:MemoryTracker.take_snapshot"])
json.dump
with open("/verif/properties.jsonl","w") as f:
    for x in P: f.write(json.dumps(x)+"\n")
print(len(P))
for x in P: print(x["id"],x["title"])
