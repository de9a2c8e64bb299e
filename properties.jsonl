{"id": "C01", "title": "Buffer is a sliding window", "statement": "After any sequence of n>=1 calls, wax.modules.Buffer(maxlen, fill_value) returns exactly the last maxlen inputs, oldest first, left-padded with fill_value when fewer than maxlen inputs were seen; with return_state=True the reported len_buffer is min(n,maxlen) and i_start is maxlen-len_buffer, so buffer[i_start:] is exactly the recorded data.", "quantifier": "every maxlen>=1, every fill value, every finite input stream, every prefix of it", "why_tests_cant": "The window contents depend on the whole call history and maxlen; tests fix a few lengths.", "anchors": ["src/wax/modules/buffer.py:buffer_fn", "src/wax/modules/buffer.py:Buffer"]}
{"id": "C02", "title": "Flax circular Buffer refines the Haiku shift Buffer", "statement": "For the same fresh state and the same input stream, the Flax Buffer (O(1) circular write, int32 write index) returns at each step the same array and the same length as the Haiku Buffer, for as long as fewer than 2^31 items have been written; for ever when maxlen is a power of two. (The bound is needed for every other size: at write 2^31 the int32 index wraps and the array leaves logical order.)", "quantifier": "every maxlen with 1<=maxlen<=2^30 (beyond that the int32 index arithmetic of one read already overflows), fill value, and stream", "why_tests_cant": "Needs an inductive coupling invariant between two representations; the failing histories have more than 2 billion steps.", "anchors": ["src/wax/flax/modules/buffer.py:Buffer", "src/wax/modules/buffer.py:Buffer"]}
{"id": "C03", "title": "Lag is an exact delay", "statement": "Lag(k) returns at step t (0-based) the input given at step t-k, and fill_value when t<k; k=0 is the identity.  Haiku and Flax agree.", "quantifier": "every lag k>=0, fill value, stream and step (the agreement with Flax: fewer than 2^31 steps, its int32 write index)", "why_tests_cant": "Holds for every lag and every stream position.", "anchors": ["src/wax/modules/lag.py:Lag", "src/wax/flax/modules/lag.py:Lag"]}
{"id": "C04", "title": "Diff is the first difference", "statement": "Diff returns NaN at the first step and x[t]-x[t-1] (IEEE NaN/inf rules) afterwards; hence on finite streams the running sum of the outputs after the first telescopes to x[t]-x[0].", "quantifier": "every stream and step", "why_tests_cant": "Universally quantified over streams; telescoping is inductive.", "anchors": ["src/wax/modules/diff.py:Diff", "src/wax/flax/modules/diff.py:Diff"]}
{"id": "C05", "title": "PctChange with pad uses the last valid prior value", "statement": "PctChange(fill_method in {ffill,pad}) returns at step t x[t]/p-1 where p is the most recent non-NaN input strictly before t (NaN if none); with fillna_zero a NaN input with an existing p yields 0; without it NaN.  On NaN-free, zero-free streams compounding (1+output) recovers x[t]/x[0].", "quantifier": "every stream with arbitrary NaN placement, every step", "why_tests_cant": "NaN placement patterns are unbounded.", "anchors": ["src/wax/modules/pct_change.py:PctChange", "src/wax/flax/modules/pct_change.py:PctChange"]}
{"id": "C06", "title": "Ffill returns the latest valid value", "statement": "Ffill returns at step t the most recent non-NaN input among x[0..t] and NaN exactly when every input so far is NaN; it never looks ahead and is idempotent (Ffill after Ffill = Ffill).", "quantifier": "every stream and step", "why_tests_cant": "Unbounded runs of NaN.", "anchors": ["src/wax/modules/ffill.py:Ffill", "src/wax/flax/modules/ffill.py:Ffill"]}
{"id": "C07", "title": "RollingMean is the NaN-skipping window mean", "statement": "RollingMean(horizon, min_periods) returns at step t the mean of the non-NaN values among the last horizon inputs when at least max(min_periods,1) of them are present, NaN otherwise; the result always lies between the min and max of those values.", "quantifier": "every horizon>=1, min_periods, stream with NaNs and step", "why_tests_cant": "Depends on the window content for all histories.", "anchors": ["src/wax/modules/rolling_mean.py:RollingMean", "src/wax/flax/modules/rolling_mean.py:RollingMean"]}
{"id": "C08", "title": "Counter counts calls modulo 2^32", "statement": "The n-th call of Counter returns n mod 2^32 (uint32 wrap-around): counts are exact and strictly increasing up to 2^32-1 calls and then wrap to 0.", "quantifier": "every number of calls", "why_tests_cant": "Wrap-around needs 4 billion calls.", "anchors": ["src/wax/modules/counter.py:Counter", "src/wax/flax/modules/counter.py:Counter"]}
{"id": "C09", "title": "HasChanged detects exactly the changes", "statement": "From the second step on, HasChanged returns False exactly when the input equals the previous input elementwise under IEEE equality (so any NaN element reports a change at every step); at the first step it returns False exactly when all elements equal the dtype's missing value (so never for floats).", "quantifier": "every dtype class, stream and step", "why_tests_cant": "All pairs of successive values incl. NaN.", "anchors": ["src/wax/modules/has_changed.py:HasChanged", "src/wax/stream.py:DTYPE_INIT_VALUES"]}
{"id": "C10", "title": "FillNanInf removes all non-finite values", "statement": "FillNanInf(fill) returns every finite entry unchanged and fill for NaN, +inf and -inf; with a finite fill its output is entirely finite and it is idempotent.", "quantifier": "every array and fill value", "why_tests_cant": "All float classes at all positions.", "anchors": ["src/wax/modules/fill_nan_inf.py:FillNanInf"]}
{"id": "C11", "title": "ApplyMask selects or fills", "statement": "ApplyMask returns x where the mask is true and mask_value elsewhere, with mask broadcast along the chosen axis; it raises ValueError for an axis other than None/0/1 and for a shape mismatch, and otherwise the result does not depend on x at masked-out positions.", "quantifier": "every array, mask, axis and mask value", "why_tests_cant": "All shapes and masks, including the rejected ones.", "anchors": ["src/wax/modules/apply_mask.py:ApplyMask"]}
{"id": "C12", "title": "MaskMean ignores masked-out entries", "statement": "MaskMean over axis None returns (sum of unmasked entries, NaN counted as 0)/(number of unmasked entries), is independent of every masked-out value, is NaN when nothing is unmasked, and on NaN-free unmasked data is their arithmetic mean and lies within their range.", "quantifier": "every array and mask", "why_tests_cant": "All masks and contents.", "anchors": ["src/wax/modules/mask_mean.py:MaskMean", "src/wax/flax/modules/mask_mean.py:MaskMean"]}
{"id": "C13", "title": "MaskStd is a masked second moment", "statement": "Over axis None (other axes: C143-C147), MaskStd's squared output is eps + the masked mean of squared deviations when that variance is positive, exactly 0 when it is 0; independent of masked-out values; invariant under translation of the unmasked values when not assume_centered.", "quantifier": "every array, mask and shift", "why_tests_cant": "All contents.", "anchors": ["src/wax/modules/mask_std.py:MaskStd", "src/wax/modules/mask_normalize.py:MaskNormalize"]}
{"id": "C14", "title": "Haiku OHLC summarises the current bar", "statement": "At every step OHLC's OPEN/CLOSE/HIGH/LOW are the first/last/maximum/minimum of the non-NaN prices received since (and including) the last reset step, all NaN if there is none; therefore LOW<=OPEN<=HIGH and LOW<=CLOSE<=HIGH always.", "quantifier": "every price stream with NaNs and every reset pattern", "why_tests_cant": "Unbounded bars and reset patterns.", "anchors": ["src/wax/modules/ohlc.py:OHLC"]}
{"id": "C15", "title": "Flax OHLC agrees with Haiku OHLC", "statement": "On the same price stream and reset pattern, Flax OHLC and Haiku OHLC return the same bars.  (True for NaN-free prices; false once a NaN price occurs.)", "quantifier": "every price stream and reset pattern", "why_tests_cant": "Divergence depends on the history of NaN and resets.", "anchors": ["src/wax/flax/modules/ohlc.py:OHLC", "src/wax/modules/ohlc.py:OHLC"]}
{"id": "C16", "title": "EWMA adjust=True is the exponentially weighted mean", "statement": "With adjust=True and 0<alpha<1, after any stream EWMA's output is the weighted mean of the non-NaN inputs where an input k positions ago weighs (1-alpha)^k; k counts all steps when ignore_na=False and only observed steps when ignore_na=True.  It is NaN until the first observation, and a NaN input returns the previous mean.", "quantifier": "every alpha in (0,1), both ignore_na modes, every stream with NaNs", "why_tests_cant": "Closed form over unbounded histories.", "anchors": ["src/wax/modules/ewma.py:EWMA", "src/wax/flax/modules/ewma.py:EWMA"]}
{"id": "C17", "title": "EWMA adjust=False is the recursive exponential filter", "statement": "With adjust=False EWMA starts at the first non-NaN input and then, on gap-free data, satisfies y[t]=(1-alpha)y[t-1]+alpha x[t]; with NaN gaps of length g and ignore_na=False the old value's weight is (1-alpha)^(g+1) renormalised against alpha; with ignore_na=True gaps are invisible.", "quantifier": "every alpha in (0,1), both ignore_na modes, every stream with NaNs", "why_tests_cant": "All gap patterns.", "anchors": ["src/wax/modules/ewma.py:EWMA"]}
{"id": "C18", "title": "EWMA stays in the range of its data", "statement": "In every mode (adjust True, False, linear; both ignore_na) every non-NaN EWMA output lies between the minimum and the maximum of the non-NaN inputs seen so far (and initial_value when given); min_periods only turns outputs into NaN and does so exactly while fewer than min_periods observations were seen.", "quantifier": "every mode, alpha in (0,1), initial value, min_periods, stream", "why_tests_cant": "An invariant over all histories.", "anchors": ["src/wax/modules/ewma.py:EWMA"]}
{"id": "C19", "title": "EWMA linear adjustment is the plain mean at start", "statement": "With adjust='linear' (ignore_na=True) and com >= n-1, after n observations the output is the plain arithmetic mean of those n observations; once more than com observations were seen it is a filter with constant weights.", "quantifier": "every com>=0, stream, n", "why_tests_cant": "All n and com.", "anchors": ["src/wax/modules/ewma.py:EWMA"]}
{"id": "C20", "title": "Numba EWMA equals JAX EWMA", "statement": "For the same com, adjust, ignore_na, min_periods and column, the numba EWMA returns the same outputs as the JAX EWMA module for any stream, including NaNs.", "quantifier": "every configuration with com>0 and every stream", "why_tests_cant": "Two different recurrences must agree on all histories.", "anchors": ["src/wax/numba/ewma_numba.py:ewma", "src/wax/modules/ewma.py:EWMA"]}
{"id": "C21", "title": "Numba EWMA can be resumed without mutating saved state", "statement": "Running the numba EWMA on a stream, and then on the rest with the returned state, gives the same as one run; and a call does not change the state object the caller passed in.", "quantifier": "every split of every stream", "why_tests_cant": "All splits; aliasing is invisible to value tests.", "anchors": ["src/wax/numba/ewma_numba.py:ewma"]}
{"id": "C22", "title": "EWMVar is a non-negative weighted variance", "statement": "Every EWMVar variance output is >= 0, it is 0 on constant streams, and for adjust=False it equals the exponentially weighted second moment minus squared mean of the same weights.", "quantifier": "every alpha in (0,1), stream", "why_tests_cant": "Invariant over all histories.", "anchors": ["src/wax/modules/ewmvar.py:EWMVar"]}
{"id": "C23", "title": "EWMCov is EWMA of products minus product of EWMAs", "statement": "EWMCov(x,y) outputs a matrix with EWMCov(x,y) = EWMCov(y,x) transposed; EWMCov(x,x) is symmetric with non-negative diagonal on NaN-free streams.", "quantifier": "every alpha, stream, dimension", "why_tests_cant": "All dimensions and histories.", "anchors": ["src/wax/modules/ewmcov.py:EWMCov"]}
{"id": "C24", "title": "Haiku ARMA satisfies its recurrence", "statement": "At each step ARMA(alpha,beta) returns eps[t] + sum_j beta-weighted past eps + sum_i alpha-weighted past outputs, with values before the start equal to 0; the last coefficient multiplies the most recent value.", "quantifier": "every coefficient vectors with length>=1, every finite innovation stream", "why_tests_cant": "Unbounded recursion.", "anchors": ["src/wax/modules/arma.py:ARMA"]}
{"id": "C25", "title": "Flax ARMA satisfies the documented recurrence", "statement": "Flax ARMA returns y[t]=sum_i alpha_i y[t-i]+sum_j beta_j eps[t-j]+eps[t] as documented.  (False: its AR buffer is pushed twice per step.)", "quantifier": "every coefficients and stream", "why_tests_cant": "Interleaving only visible over history.", "anchors": ["src/wax/flax/modules/arma.py:ARMA"]}
{"id": "C26", "title": "SNARIMAX is a one-step-ahead forecaster", "statement": "The prediction SNARIMAX returns for time t does not depend on the target y[t] revealed at t (no look-ahead).  (False of the code: the AR regressors contain y[t] itself.)  The MA regressors are the last q prediction errors strictly before t, and unsupported orders are rejected.", "quantifier": "every orders p,q, regressor and stream", "why_tests_cant": "Non-interference over all pairs of streams.", "anchors": ["src/wax/modules/snarimax.py:SNARIMAX", "src/wax/flax/modules/snarimax.py"]}
{"id": "C27", "title": "int64 encoding round-trips", "statement": "decode_int64(encode_int64(s)) = s for every int64 s (negative included), both halves are uint32, encoding is injective, and int64 is the exact domain; datetime64/Timestamp encoding round-trips through it.", "quantifier": "every 64-bit integer", "why_tests_cant": "2^64 inputs.", "anchors": ["src/wax/encode.py:encode_int64", "src/wax/encode.py:decode_int64"]}
{"id": "C28", "title": "Encoded dates compare like dates", "statement": "less(encode a, encode b) holds iff a<b.  (True when a and b have the same sign, e.g. all dates after 1970; false across the epoch.)", "quantifier": "every pair of int64 values", "why_tests_cant": "2^128 pairs.", "anchors": ["src/wax/encode.py:less"]}
{"id": "C29", "title": "Flooring encoded dates to the day", "statement": "floor_datetime/floor_jax_datekey return the greatest multiple of one day that is <= the argument, so it is idempotent, monotone and within one day of the argument; only unit 'd' is supported.  (In the first incomplete day of the int64 range, NaT included, the product wraps and the result is after the argument.)", "quantifier": "every int64 timestamp whose midnight is representable", "why_tests_cant": "All timestamps, including pre-epoch.", "anchors": ["src/wax/encode.py:floor_datetime", "src/wax/encode.py:floor_jax_datekey"]}
{"id": "C30", "title": "String and dataset encoders round-trip", "statement": "Decoding the encoded array gives back the original labels in the original shape; codes are < number of distinct labels and order-isomorphic to label order.", "quantifier": "every array of labels", "why_tests_cant": "All label multisets.", "anchors": ["src/wax/encode.py:string_encoder", "src/wax/encode.py:encode_dataset"]}
{"id": "C31", "title": "Stream merge is causal", "statement": "Every secondary observation delivered by Stream.merge at a local time t has a timestamp strictly before the (embedded) local time; nothing from the future is ever delivered, whatever the speeds of the streams.", "quantifier": "every local stream, every set of secondary streams with sorted times, every embedding map", "why_tests_cant": "All interleavings of clocks.", "anchors": ["src/wax/stream.py:Stream.merge", "src/wax/stream.py:timestamp_is_before_local"]}
{"id": "C32", "title": "Stream merge emits one record per local time", "statement": "Stream.merge yields exactly one output per local observation, in order, and stops exactly when the local stream stops, no matter when secondary streams are exhausted.", "quantifier": "every set of streams", "why_tests_cant": "All exhaustion orders.", "anchors": ["src/wax/stream.py:Stream.merge", "src/wax/stream.py:Stream.start_dataset_stream"]}
{"id": "C33", "title": "Forward-filled secondary streams are fresh", "statement": "A forward-filled secondary stream shows, at each local time, its latest observation strictly before the embedded local time, and the missing value if there is none yet - also after the secondary stream is exhausted.", "quantifier": "every sorted secondary stream and every non-decreasing local clock", "why_tests_cant": "All relative speeds.", "anchors": ["src/wax/stream.py:Stream.merge"]}
{"id": "C34", "title": "Non-forward-filled streams deliver each batch once", "statement": "A secondary stream without ffill shows a new value only at local steps at which new observations became available since the previous local step, and the missing value otherwise.", "quantifier": "every sorted secondary stream and local clock", "why_tests_cant": "All relative speeds.", "anchors": ["src/wax/stream.py:Stream.merge"]}
{"id": "C35", "title": "Buffered secondary streams show the latest distinct observations", "statement": "A buffered secondary stream shows the last maxlen observations (each once) strictly before the local time, left padded with missing values.  (False of the code: the first observation is recorded twice, because start_dataset_stream yields step 0 twice.)", "quantifier": "every buffer size, stream and clock", "why_tests_cant": "History dependent.", "anchors": ["src/wax/stream.py:Stream.merge", "src/wax/stream.py:tree_buffer_transform", "src/wax/stream.py:Stream.start_dataset_stream"]}
{"id": "C36", "title": "Tracing then accessing reads the same data", "statement": "access_data with the index produced by tracing returns at each step the value the un-traced stream would have delivered, and the dtype's missing value when the index is negative.", "quantifier": "every dataset variable and step", "why_tests_cant": "All positions.", "anchors": ["src/wax/stream.py:access_data", "src/wax/stream.py:get_dataset_index", "src/wax/stream.py:np_select_item"]}
{"id": "C37", "title": "Unroll equals step-by-step application and can be resumed", "statement": "Unrolling a transformed function over xs++ys equals unrolling over xs, then over ys from the returned final state (rng=None); outputs have one entry per input; outputs at step t depend only on inputs up to t.", "quantifier": "every step function, state, stream and split point", "why_tests_cant": "All functions and splits.", "anchors": ["src/wax/unroll.py:unroll_transform_with_state", "src/wax/unroll.py:unroll"]}
{"id": "C38", "title": "Static and dynamic unroll agree", "statement": "dynamic=True (lax.scan) and dynamic=False (python loop) return the same outputs and final state on every non-empty sequence; on an empty sequence the static version raises; skip_first=True equals dropping the first element.", "quantifier": "every step function, carry and stream, including empty", "why_tests_cant": "All functions and streams.", "anchors": ["src/wax/unroll.py:static_scan", "src/wax/unroll.py:iter_first_axis"]}
{"id": "C39", "title": "Each unroll step sees a fresh key", "statement": "With an rng key, unroll gives step t the key obtained by splitting t+1 times (the same chain regardless of the inputs), so changing inputs never changes the keys; dynamic_unroll_fori_loop in contrast hands the same key to all steps, so it agrees with unroll on every function that ignores its key (and not in general).", "quantifier": "every split function, key and stream", "why_tests_cant": "All step counts.", "anchors": ["src/wax/unroll.py:unroll_transform_with_state", "src/wax/unroll.py:dynamic_unroll_fori_loop"]}
{"id": "C40", "title": "Flax unroll equals step-by-step application from a fresh module", "statement": "flax_unroll over xs returns what a fresh module returns when fed xs one by one.  (False of the code: flax init already consumes xs[0], so the first element is consumed twice; what holds: the outputs are those of a fresh module on x0,x0,x1,... without the first; with skip_first=True they are exactly the fresh module's outputs at steps 1...)", "quantifier": "every module and stream", "why_tests_cant": "History dependent.", "anchors": ["src/wax/flax/core/unroll.py:flax_unroll_transform", "src/wax/flax/core/transform.py:flax_transform_with_state"]}
{"id": "C41", "title": "gym_static_unroll returns one output per observation", "statement": "gym_static_unroll(skip_first=False) returns one output per generated observation.  (False of the code: the first output is computed, the state advances, but it is never stored.)", "quantifier": "every function and data generator", "why_tests_cant": "All lengths.", "anchors": ["src/wax/unroll.py:gym_static_unroll"]}
{"id": "C42", "title": "Batched and vmapped modules are independent per batch element", "statement": "VMap / vmap_lift_with_state: output and state at batch index b depend only on input and state at b and equal those of the unbatched module run alone on that index.", "quantifier": "every module, batch size, index, history", "why_tests_cant": "Non-interference across batch for all histories.", "anchors": ["src/wax/modules/vmap.py:VMap", "src/wax/stateful.py:vmap_lift_with_state"]}
{"id": "C43", "title": "UpdateOnEvent freezes the module between events", "statement": "Haiku UpdateOnEvent: at every step the output and the inner state equal those of the inner module run only on the inputs at event steps; before the first event the output is initial_output_value.", "quantifier": "every inner module, event pattern and stream", "why_tests_cant": "All event patterns.", "anchors": ["src/wax/modules/update_on_event.py:UpdateOnEvent"]}
{"id": "C44", "title": "Flax conditional computation caches outputs only", "statement": "Flax ConditionalComputation returns at each step the output computed at the last event step, the initial value before the first, while the inner module's state advances on every step.", "quantifier": "every module, event pattern, stream", "why_tests_cant": "All event patterns.", "anchors": ["src/wax/flax/core/streaming_transforms.py:ConditionalComputation"]}
{"id": "C45", "title": "streaming_scan with resets restarts segments", "statement": "With reset_on and preserve_state, the outputs after a reset element are those of the function started from the initial state on the rest of the stream: the sequence is processed as independent segments each ending with (and including) its reset element.", "quantifier": "every function, stream and reset predicate", "why_tests_cant": "All segmentations.", "anchors": ["src/wax/flax/core/streaming_transforms.py:streaming_scan"]}
{"id": "C46", "title": "The streaming state machine follows its transition table", "statement": "StreamingStateMachine's next state is the target of the first transition (in declaration order) whose condition holds, and stays put when none does; it never leaves the set of declared states when the targets are declared.", "quantifier": "every state table, condition set and input history", "why_tests_cant": "All histories.", "anchors": ["src/wax/flax/core/streaming_transforms.py:StreamingStateMachine"]}
{"id": "C47", "title": "Hierarchical execution order is a dependency-respecting permutation", "statement": "get_execution_order returns every active state exactly once, for any dependency relation (including cyclic), and for acyclic dependencies every state comes after all of its active dependencies.", "quantifier": "every finite state set and dependency relation, any set iteration order", "why_tests_cant": "All graphs and hash orders.", "anchors": ["src/wax/flax/core/advanced_state_patterns.py:HierarchicalStateMachine.get_execution_order"]}
{"id": "C48", "title": "Attention history is a bounded ring", "statement": "AttentionBasedStateSelector keeps the latest min(n, memory_size) entries oldest-first.", "quantifier": "every memory size and history", "why_tests_cant": "All histories.", "anchors": ["src/wax/flax/core/advanced_state_patterns.py:AttentionBasedStateSelector"]}
{"id": "C49", "title": "Downsampling buffer keeps every factor-th sample", "statement": "CompressedBuffer(downsample) records exactly the inputs at steps t with t mod factor = 0 and its storage never exceeds max(1, maxlen//factor).", "quantifier": "every factor, maxlen, streams of fewer than 2^31 inputs", "why_tests_cant": "All histories.", "anchors": ["src/wax/flax/modules/compressed_buffer.py:CompressedBuffer"]}
{"id": "C50", "title": "Count-min sketch never undercounts", "statement": "Each counter row of the sketch sums to the number of items seen, and for any item the minimum over the rows of its own buckets is at least its true frequency.", "quantifier": "every stream and hash parameters (up to 2^24 items per counter: the counters are float32 and stop there)", "why_tests_cant": "All streams.", "anchors": ["src/wax/flax/modules/compressed_buffer.py:CompressedBuffer"]}
{"id": "C51", "title": "Newton preconditioner is the exact inverse", "statement": "After any sequence of gradients the Newton optimiser's matrix equals the inverse of eps*I + sum of g g^T, the Sherman-Morrison denominator is always >= 1, and the update is that inverse applied to the gradient.", "quantifier": "every dimension, eps>0, gradient sequence", "why_tests_cant": "All histories; linear algebra identity.", "anchors": ["src/wax/optim/newton.py:sherman_morrison", "src/wax/optim/newton.py:newton"]}
{"id": "C52", "title": "Parameter partition and merge lose nothing", "statement": "Splitting parameters by a trainable predicate and merging them back gives the original parameters; the optimiser changes trainable leaves only.  (Flax variant: false for nested dictionaries, the merge is shallow.)", "quantifier": "every parameter tree and predicate", "why_tests_cant": "All trees.", "anchors": ["src/wax/modules/update_params.py", "src/wax/modules/online_optimizer.py", "src/wax/flax/modules/update_params.py", "src/wax/flax/modules/online_optimizer.py"]}
{"id": "C53", "title": "Online optimisers never feed NaN or infinite gradients", "statement": "No NaN or infinite gradient reaches the optimiser (OnlineOptimizer: NaN becomes 0 and +/-inf the largest finite number; FuncOptimizer: both become 0); the step counter equals the number of calls; projection is applied to every parameter produced.", "quantifier": "every gradient stream", "why_tests_cant": "All histories.", "anchors": ["src/wax/modules/online_optimizer.py:OnlineOptimizer"]}
{"id": "C54", "title": "Gym loop drives agent, env and callbacks consistently", "statement": "gym_unroll performs, for each step, exactly one action then one env step; every on_step callback sees every step even when another requests stop; the loop ends at the first step where the env or a callback says done; every callback's on_train_end runs once.", "quantifier": "every env, agent, callback list", "why_tests_cant": "All interleavings of done signals.", "anchors": ["src/wax/gym/gym_unroll.py:gym_unroll"]}
{"id": "C55", "title": "Gym feedback is causal", "statement": "GymFeedback passes the previous action (never the current one) to the environment: reward and observation at t are functions of raw observations up to t and actions before t.", "quantifier": "every agent, env and stream", "why_tests_cant": "Non-interference.", "anchors": ["src/wax/modules/gym_feedback.py:GymFeedback"]}
{"id": "C56", "title": "Stop callback stops at its bound", "statement": "Stop(n) asks to stop for the first time at the n-th on_step call counted over its whole lifetime (n>=1), so the loop runs at most n steps on a fresh Stop.", "quantifier": "every n and loop", "why_tests_cant": "All n.", "anchors": ["src/wax/gym/callbacks/stop.py:Stop", "src/wax/gym/callbacks/record.py:Record"]}
{"id": "C57", "title": "Callback scoping restores the active set", "statement": "Exiting local_callbacks restores exactly the previous active callbacks, also on exceptions; exiting add_callbacks removes what it added.  (add_callbacks restoring the previous set is false when a callback was already active.)", "quantifier": "every nesting of scopes and every registered set", "why_tests_cant": "All nestings.", "anchors": ["src/wax/gym/callbacks/callbacks.py:add_callbacks", "src/wax/gym/callbacks/callbacks.py:local_callbacks"]}
{"id": "C58", "title": "Debugger observes without interfering and keeps bounded history", "statement": "debug_streaming returns the wrapped function's results unchanged; the state history keeps the last min(n,max_history) steps and hooks keep the last max_events events while hit counts count all; a disabled debugger records nothing.", "quantifier": "every function, hook set and call history", "why_tests_cant": "All histories.", "anchors": ["src/wax/flax/debug/debugger.py:StreamingDebugger", "src/wax/flax/debug/debugger.py:DebugHook"]}
{"id": "C59", "title": "Memory tracker samples on its interval", "statement": "take_snapshot stores a snapshot at exactly the calls whose 1-based index is a multiple of the interval, or forced, and keeps at most max_snapshots latest ones.", "quantifier": "every interval, call history", "why_tests_cant": "All histories.", "anchors": ["src/wax/flax/debug/memory_tracker.py:MemoryTracker.take_snapshot"]}
{"id": "C60", "title": "unroll_stream collects every leaf", "statement": "unroll_stream returns, for each leaf, the list of that leaf over all the observations of the generator, in order; skip_first=True drops the first observation only.  (skip_first=True is wrong with two leaves or more: the leaves share one list.)", "quantifier": "every generator and number of leaves", "why_tests_cant": "must hold for every length and number of leaves; the only tests use skip_first=False", "anchors": ["src/wax/stream.py:unroll_stream"]}
{"id": "C61", "title": "Batch transform uses the key given to apply", "statement": "A batch-transformed function applied to a batch runs the function over the batch in order with the key given to apply, and returns the state after the batch; data_unroll returns all the observations of a generator in order.  (False for the lax.scan version: it ignores the key of apply and reuses the one given to init.)", "quantifier": "every function pair, state, keys and batch", "why_tests_cant": "must hold for every function and batch; tests use functions that ignore their key", "anchors": ["src/wax/transform.py:transform_batch_with_state", "src/wax/transform.py:transform_batch_with_state_static", "src/wax/unroll.py:data_unroll"]}
{"id": "C62", "title": "ConditionalStateUpdate updates only on its condition", "statement": "ConditionalStateUpdate runs its module exactly on the inputs satisfying the condition (output and state are the module's on that sub-stream); on the other inputs the state is unchanged and the first argument is returned.", "quantifier": "every module, condition and stream", "why_tests_cant": "All input histories.", "anchors": ["src/wax/flax/core/streaming_transforms.py:ConditionalStateUpdate"]}
{"id": "C63", "title": "HierarchicalState feeds each module its dependencies", "statement": "In a call of HierarchicalState every module declared after its dependencies receives the call's keywords and the outputs of all its dependencies (call keywords win); dependencies declared later are left out.", "quantifier": "every module set, dependency table and inputs", "why_tests_cant": "All dependency tables.", "anchors": ["src/wax/flax/core/streaming_transforms.py:HierarchicalState"]}
{"id": "C64", "title": "Parameters and state of a Flax module are split and combined without loss", "statement": "combine_variables then split_variables is the identity when no state collection is called params; split then combine preserves every collection; apply returns every collection but params.", "quantifier": "every parameter value and set of state collections", "why_tests_cant": "All variable dictionaries.", "anchors": ["src/wax/flax/core/transform.py:combine_variables", "src/wax/flax/core/transform.py:split_variables", "src/wax/flax/core/transform.py:flax_transform_with_state"]}
{"id": "C65", "title": "State machine outputs do not depend on the execution order", "statement": "A call of HierarchicalStateMachine (sequential or parallel) returns for every state its module's output on the call's arguments, or the record of its failure; neither the dependencies, nor the set iteration order, nor other modules' failures change it.", "quantifier": "every set of modules, dependency table, iteration order and arguments", "why_tests_cant": "All orders; Python's set order changes between runs.", "anchors": ["src/wax/flax/core/advanced_state_patterns.py:HierarchicalStateMachine.__call__"]}
{"id": "C66", "title": "Hierarchy levels follow the dependencies", "statement": "With acyclic dependencies a state's level is 0 without dependencies and otherwise one more than the maximum level of its dependencies; every state is on exactly one level and is influenced by exactly the states of lower-numbered levels, among them all its dependencies; levels are bounded even with cycles.", "quantifier": "every dependency table", "why_tests_cant": "All graphs.", "anchors": ["src/wax/flax/core/advanced_state_patterns.py:HierarchicalStateMachine._get_hierarchy_levels", "src/wax/flax/core/advanced_state_patterns.py:HierarchicalStateMachine._get_higher_level_states"]}
{"id": "C67", "title": "Hierarchical coordination blends without leaving the range", "statement": "With the hierarchical strategy a state's coordinated output is its output blended with the coordinated outputs of all higher states; level-0 states are unchanged; for each key every coordinated value stays within the range of the states' values, and no key is added or lost.", "quantifier": "every dependency table and outputs over an ordered field", "why_tests_cant": "All tables and values.", "anchors": ["src/wax/flax/core/advanced_state_patterns.py:HierarchicalStateMachine.coordinate_states", "src/wax/flax/core/advanced_state_patterns.py:HierarchicalStateMachine._apply_hierarchical_influence"]}
{"id": "C68", "title": "CompositeStateManager composes its patterns", "statement": "pipeline: pattern i behaves as if run alone on the merge of the previous pattern's inputs and outputs (dictionaries accumulate, anything else is passed on); parallel: every pattern behaves as if run alone on the input; other strategy names raise.", "quantifier": "every list of patterns and input stream", "why_tests_cant": "All streams and patterns.", "anchors": ["src/wax/flax/core/advanced_state_patterns.py:CompositeStateManager"]}
{"id": "C69", "title": "Quantile estimates are order statistics of the recent window", "statement": "CompressedBuffer(quantile) recomputes its estimates exactly at every 10th call (starting with the first) as linearly interpolated quantiles of the non-NaN values of the last min(maxlen,1000) entries, and repeats the last estimates in between; the estimates are monotone in the requested level, with level 0 the minimum and level 1 the maximum.", "quantifier": "every stream (with NaN), every maxlen and list of levels", "why_tests_cant": "All histories and all quantile levels.", "anchors": ["src/wax/flax/modules/compressed_buffer.py:CompressedBuffer"]}
{"id": "C70", "title": "Memory report matches the storage", "statement": "The memory usage report of CompressedBuffer totals its parts and equals the bytes of the arrays actually stored, for every strategy; an unknown strategy is rejected.", "quantifier": "every configuration and history", "why_tests_cant": "All configurations.", "anchors": ["src/wax/flax/modules/compressed_buffer.py:CompressedBuffer"]}
{"id": "C71", "title": "Hierarchical buffer levels", "statement": "The recent level of the hierarchical buffer is the window of the last recent_size inputs; the medium and long levels are driven by exactly the inputs at steps multiple of 5 and 50; a level that keeps its output repeats it between its updates.", "quantifier": "every stream and level module", "why_tests_cant": "All histories.", "anchors": ["src/wax/flax/modules/compressed_buffer.py"]}
{"id": "C72", "title": "Online optimisation log can be replayed", "statement": "The loss and info reported by OnlineOptimizer at step t are the model's on the parameters returned at step t-1 (the initial ones at t=0) and on the model state threaded through the calls: evaluation comes before learning from x_t.", "quantifier": "every model, optimiser, projection, gradient and stream", "why_tests_cant": "All histories.", "anchors": ["src/wax/modules/online_optimizer.py:OnlineOptimizer"]}
{"id": "C73", "title": "Supervised learner predicts before learning", "statement": "The prediction of OnlineSupervisedLearner at step t does not depend on the target of step t nor on anything later; it is the model on the parameters returned at step t-1.", "quantifier": "every model, loss, optimiser and stream", "why_tests_cant": "Non-interference over all streams.", "anchors": ["src/wax/modules/online_supervised_learner.py:OnlineSupervisedLearner", "src/wax/modules/func_optimizer.py:FuncOptimizer"]}
{"id": "C74", "title": "Flax OnlineOptimizer and the model's state", "statement": "Training a stateful model with the Flax OnlineOptimizer advances its state as the Haiku one does. (False: the state never advances; the exact behaviour is proved.)", "quantifier": "every model and stream", "why_tests_cant": "All histories.", "anchors": ["src/wax/flax/modules/online_optimizer.py:OnlineOptimizer"]}
{"id": "C75", "title": "Flax OnlineSupervisedLearner learns", "statement": "The Flax OnlineSupervisedLearner updates its model from the data. (False: it wraps the model in a plain function and so never has a trainable parameter; the exact behaviour is proved.)", "quantifier": "every model, loss, optimiser and stream", "why_tests_cant": "All histories.", "anchors": ["src/wax/flax/modules/online_supervised_learner.py:OnlineSupervisedLearner", "src/wax/flax/modules/func_optimizer.py:FuncOptimizer"]}
{"id": "C76", "title": "gym_unroll of Haiku agent and environment is the feedback loop", "statement": "Running gym_unroll with a HaikuAgent, a HaikuEnv and a Record over data x0, x1, ..., records the rewards and observations of the GymFeedback loop on x1, ... started from the action on x0, and stops when the data is exhausted. The recorded action of a step is the one the environment received at that step (one step earlier than the action GymFeedback returns at that step).", "quantifier": "every agent, environment, state type and finite data sequence", "why_tests_cant": "Two different execution engines must agree for all agents, environments and lengths.", "anchors": ["src/wax/gym/gym_unroll.py:gym_unroll", "src/wax/gym/haiku_env.py:HaikuEnv", "src/wax/gym/haiku_agent.py:HaikuAgent", "src/wax/gym/callbacks/record.py:Record", "src/wax/modules/gym_feedback.py:GymFeedback"]}
{"id": "C77", "title": "Record keeps exactly the executed steps", "statement": "After gym_unroll, a Record callback holds, in order, one entry for each step at which the environment did not report done and the action is not None, and nothing else, whatever other callbacks run beside it.", "quantifier": "every environment, agent, set of callbacks and number of steps", "why_tests_cant": "All histories and callback sets.", "anchors": ["src/wax/gym/callbacks/record.py:Record", "src/wax/gym/gym_unroll.py:gym_unroll"]}
{"id": "C78", "title": "Flax GymFeedback feeds the previous action back", "statement": "The Flax GymFeedback uses the previous action of the agent when computing the next step. (False: the stored previous action is never read; each action is the agent's answer to the current observation and reward only. This exact behaviour is proved.)", "quantifier": "every agent and history of observations and rewards", "why_tests_cant": "All histories.", "anchors": ["src/wax/flax/modules/gym_feedback.py:GymFeedback"]}
{"id": "C79", "title": "State change detector catches slow drift", "statement": "state_change_detector compares each value with the value at its last firing (the first value before any firing) and fires iff the difference exceeds the tolerance, so no drift stays unreported once it exceeds the tolerance.", "quantifier": "every tolerance and finite history of scalar values", "why_tests_cant": "All histories.", "anchors": ["src/wax/flax/debug/debugger.py:state_change_detector"]}
{"id": "C80", "title": "Profiler records exactly what happened", "statement": "An enabled StreamingProfiler counts every recording, keeps the last max_history metrics in order, lists as bottlenecks exactly the recordings above the threshold, its memory deltas telescope, detect_memory_leaks reports exactly the growth over the last ten metrics above the threshold; profile_streaming does not change results; a disabled profiler records nothing.", "quantifier": "every recording history, threshold and capacity", "why_tests_cant": "All histories.", "anchors": ["src/wax/flax/debug/profiler.py:StreamingProfiler", "src/wax/flax/debug/profiler.py:profile_streaming"]}
{"id": "C81", "title": "Profiled calls are counted once with their duration", "statement": "After n calls of a function decorated with profile_streaming, total_steps is n and the mean execution time is the mean duration of the calls. (False: every call is recorded twice, once with duration 0; total_steps is 2n and the mean is halved; this exact behaviour is proved.)", "quantifier": "every function and call history", "why_tests_cant": "All histories.", "anchors": ["src/wax/flax/debug/profiler.py:profile_streaming", "src/wax/flax/debug/profiler.py:ProfilerContext"]}
{"id": "C82", "title": "Memory leak reports are sound", "statement": "The memory tracker reports a leak only if memory grew by more than the threshold over the recent (at most ten) snapshots, never when memory does not grow, and reports steady growth; the reported rate is in MB per step. (The last part is false: the reported rate is growth per snapshot times the interval instead of divided by it.)", "quantifier": "every snapshot history, interval and threshold", "why_tests_cant": "All histories of memory readings.", "anchors": ["src/wax/flax/debug/memory_tracker.py:MemoryTracker._check_for_leaks"]}
{"id": "C83", "title": "State memory analysis accounts for every byte", "statement": "For every dictionary state, state_variables_mb + parameters_mb is the memory of the whole tree and buffers_mb is at most state_variables_mb.", "quantifier": "every nested state", "why_tests_cant": "All trees.", "anchors": ["src/wax/flax/debug/memory_tracker.py:MemoryTracker._analyze_state_memory"]}
{"id": "C84", "title": "Online optimisers train with the given optimiser", "statement": "The trainable parameters and the optimiser state follow the given optax transformation from its initial state: at each step the transformation receives the (cleaned) gradient at the current parameters, its update is added to the trainable parameters (then projected), its new state is kept for the next step; Haiku and Flax OnlineOptimizer and FuncOptimizer (Flax OnlineOptimizer: every parameter trainable; with frozen ones see C52).", "quantifier": "every model, optimiser, projection, predicate, initial parameters and every input stream", "why_tests_cant": "a test uses one optimiser and a few steps; an optimiser state that is silently dropped still trains, only badly", "anchors": ["src/wax/modules/online_optimizer.py:OnlineOptimizer", "src/wax/modules/func_optimizer.py:FuncOptimizer", "src/wax/flax/modules/online_optimizer.py:OnlineOptimizer", "src/wax/flax/modules/func_optimizer.py:FuncOptimizer"]}
{"id": "C85", "title": "A module applied to a dataset stream sees, at each local instant, exactly the rows published before it", "statement": "For every dataset with several clocks, every configuration of the stream (local clock, forward fill, buffers, encoded embedding) that is accepted, applying a transformed module to the stream is the unroll of that module over one record per local instant; the record shows the local row of the variables on the local clock, for every other clock the last row published strictly before the end of the step (or the row published during it, else the missing value, without forward fill; the last maxlen rows of a one-dimensional variable with a buffer, once so many were published; see C35 and C36 for the rest), and scalars unchanged. A variable with a clock among its dimensions that is not the first one is rejected.", "quantifier": "every dataset, number of clocks and variables, configuration, module, parameters, state and key", "why_tests_cant": "the claim composes merging, encoding, masking, indexing and unrolling over all interleavings of several clocks", "anchors": ["src/wax/stream.py", "src/wax/accessors.py", "src/wax/unroll.py"]}
{"id": "C86", "title": "The whole pipeline is causal", "statement": "If two datasets have the same variables and agree on everything published up to local instant number k (they may differ arbitrarily afterwards), every output of the applied module up to k is the same, for every module and every stream configuration; and the boundary is exact: what is published at the end of step k is not visible at k.", "quantifier": "every pair of accepted datasets, every module, every k", "why_tests_cant": "look-ahead through one of many stages cannot be excluded by sampling datasets", "anchors": ["src/wax/stream.py", "src/wax/accessors.py", "src/wax/unroll.py"]}
{"id": "C87", "title": "Formatting outputs keeps the nesting and the values and attaches the right labels", "statement": "Formatting a nested structure of arrays as labelled arrays, series or frames changes neither nesting nor values; with one tuple of dimension names every array gets these dimensions and the reference coordinates, and it is a ValueError iff one of them does not fit; with a parallel structure of name arrays each array gets its own. (Two pitfalls proved: a pair of outputs with two names is read as one name per output; names given as tuples in a dictionary are replaced by the dictionary keys.)", "quantifier": "every nested structure, shapes, coordinates and dimension names", "why_tests_cant": "nested structures are unbounded and the two ways of reading format_dims overlap", "anchors": ["src/wax/format.py:format_dataarray", "src/wax/format.py:format_dataframe", "src/wax/format.py:format_series"]}
{"id": "C88", "title": "Accessors return results aligned with their input", "statement": "Applying a module to a DataFrame, DataArray or Series gives the outputs of the module fed with the rows in order, labelled with the same index (and columns when an output has one entry per column), for any parameters, state and key; other shapes, and skip_first, raise ValueError; on a Dataset the default format_dims always raises IndexError; a pair of outputs on a DataFrame is mislabelled or rejected.", "quantifier": "every frame, module, nested output, parameters, state and key", "why_tests_cant": "alignment must hold for every frame size, module and nesting, including the fall-back after an exception", "anchors": ["src/wax/accessors.py:StreamDataFrame.apply", "src/wax/accessors.py:StreamDataArray.apply", "src/wax/accessors.py:StreamSeries.apply", "src/wax/accessors.py:StreamDataset.apply"]}
{"id": "C89", "title": "Automatic formatting by shape picks the first matching variable", "statement": "auto_format_with_shape gives the data the leading dimensions of the first variable of the dataset whose shape starts with the data's shape, never fails on a consistent dataset, and returns scalars and unmatched data unchanged.", "quantifier": "every dataset schema and data shape", "why_tests_cant": "the choice depends on all prefixes of all variables", "anchors": ["src/wax/format.py:auto_format_with_shape", "src/wax/format.py:tree_auto_format_with_shape"]}
{"id": "C90", "title": "df.wax.ewm(...).mean() is the column-wise EWMA with the frame's labels", "statement": "The result has the index and columns of the frame; every column is the EWMA of the same column alone; with adjust=True each cell is the exponentially weighted mean of the column's values so far (NaN before min_periods); same for Series.", "quantifier": "every frame, alpha, min_periods, ignore_na, missing-value pattern", "why_tests_cant": "unbounded frames and missing-value patterns through the whole accessor path", "anchors": ["src/wax/accessors.py:ExponentialMovingWindow", "src/wax/modules/ewma.py:EWMA"]}
{"id": "C91", "title": "streaming_optimizer evaluates before it learns, and learns with the given optimiser", "statement": "At every step the reported loss is the loss of the model's output times the scale learnt from the earlier steps; the scale and the optimiser's state follow the given optimiser from 1.0 on the gradient at the current scale; the target is the second positional argument (the only one if there is one); with SGD and squared loss on targets proportional to the output the scale error shrinks by the factor 1-2*lr*y^2 per step, geometrically to zero for suitable learning rates.", "quantifier": "all models, optimisers, losses, streams", "why_tests_cant": "the replay must hold for every stream, optimiser and model; convergence is over all stream lengths", "anchors": ["src/wax/flax/core/streaming_transforms.py:StreamingOptimizer", "src/wax/flax/core/streaming_transforms.py:streaming_optimizer"]}
{"id": "C92", "title": "The prediction of a streaming_optimizer improves with learning", "statement": "The prediction returned by a function decorated with streaming_optimizer uses what was learnt. (False: the returned prediction is never multiplied by the learnt scale; the exact behaviour is proved.)", "quantifier": "all models, optimisers, losses, streams", "why_tests_cant": "independence of the optimiser is over all optimisers and streams", "anchors": ["src/wax/flax/core/streaming_transforms.py:StreamingOptimizer"]}
{"id": "C93", "title": "Variables returned by apply_with_state can be fed back", "statement": "Calling apply_with_state repeatedly with the variables it returned continues the stream. (True without parameters; false with parameters, which are not returned; merging the returned variables into the old ones is always right; collections other than state and cache raise.)", "quantifier": "all modules, variables, streams", "why_tests_cant": "the chain of calls has any length and any module", "anchors": ["src/wax/flax/core/state_utils.py:apply_with_state"]}
{"id": "C94", "title": "StreamingScan scans with state and resets", "statement": "The StreamingScan module applies a function to a sequence with state carried between elements and reset on a condition. (False: outputs are the function on each element, the state never changes, a data-dependent reset raises; this is proved.)", "quantifier": "all functions, sequences, initial states", "why_tests_cant": "any sequence length and function", "anchors": ["src/wax/flax/core/streaming_transforms.py:StreamingScan"]}
{"id": "C95", "title": "Context decorators feed the right context", "statement": "A function decorated with streaming_compressed_memory, streaming_hierarchical_memory, streaming_state_machine, streaming_attention_state or streaming_compose_states is run with its own state on pairs (output of the context module on the arguments so far, arguments); without compression the context is the window of the last maxlen inputs.", "quantifier": "all context modules, functions, streams", "why_tests_cant": "any history", "anchors": ["src/wax/flax/modules/compressed_buffer.py:streaming_compressed_memory", "src/wax/flax/modules/compressed_buffer.py:streaming_hierarchical_memory", "src/wax/flax/core/advanced_state_patterns.py:streaming_state_machine", "src/wax/flax/core/advanced_state_patterns.py:streaming_attention_state", "src/wax/flax/core/advanced_state_patterns.py:streaming_compose_states"]}
{"id": "C96", "title": "Pattern decorators run the decorated function", "statement": "hierarchical_composition and state_machine run the decorated function with their modules. (False: the function is never called, and hierarchical_composition drops positional arguments; the exact results are proved, for conditional_update too.)", "quantifier": "all modules, functions, arguments", "why_tests_cant": "independence over all functions", "anchors": ["src/wax/flax/core/streaming_transforms.py:hierarchical_composition", "src/wax/flax/core/streaming_transforms.py:state_machine", "src/wax/flax/core/streaming_transforms.py:conditional_update"]}
{"id": "C97", "title": "Batch means", "statement": "Flax VMap returns the function's values on the batch or their mean, which is independent of the batch order and within the values' range; Haiku add_batch returns at each step the mean over the batch of what the module returns on each element's own stream.", "quantifier": "all functions, modules, batches, streams", "why_tests_cant": "any batch size and stream length", "anchors": ["src/wax/modules/vmap.py:add_batch", "src/wax/flax/modules/vmap.py:VMap", "src/wax/flax/modules/vmap.py:add_batch"]}
{"id": "C98", "title": "EWMA is linear, monotone and forgets geometrically", "statement": "On streams of numbers with NaN at the same places the EWMA of a linear combination plus a constant is the combination of the EWMAs, in every mode; an EWMA of a stream never above another is never above the other EWMA; without adjustment two filters started at different values differ after n numbers by (1-alpha)^n times the initial difference.", "quantifier": "all configurations, streams, coefficients", "why_tests_cant": "any stream length and any real coefficients", "anchors": ["src/wax/modules/ewma.py:EWMA"]}
{"id": "C99", "title": "Bollinger bands", "statement": "At every step the center is the exponentially weighted mean of all prices with smoothing 2/(window+1), the half width is num_std population standard deviations of the last window prices, and the position of the price in the band is 0 on the lower band, 1 on the upper one and 1/2 when the band is thinner than 1e-8.", "quantifier": "all windows from 2 to 2^30, widths and price streams below 2^31 steps", "why_tests_cant": "any history", "anchors": ["src/wax/flax/examples/transform_compositions.py:bollinger_bands"]}
{"id": "C100", "title": "MACD", "statement": "At every step MACD is the fast minus the slow exponentially weighted mean, the signal line is the exponentially weighted mean of the MACD values and the histogram their difference; they scale with the price unit and ignore the price level; they are 0 on constant prices.", "quantifier": "all periods (at least 2; at least 1 for the change of units) and price streams, missing prices included for the change of units", "why_tests_cant": "any history and unit", "anchors": ["src/wax/flax/examples/transform_compositions.py:macd_indicator"]}
{"id": "C101", "title": "regime_aware_processor adapts to the regime", "statement": "The regime label says whether the standard deviation of the last 50 prices exceeds the threshold, and the signal uses the smoothing of the current regime. (The label is right; the smoothing is false of the code: it is chosen once, by the first call.)", "quantifier": "all thresholds and price streams", "why_tests_cant": "any history", "anchors": ["src/wax/flax/examples/transform_compositions.py:regime_aware_processor"]}
{"id": "C102", "title": "volume_breakout_detector", "statement": "At every call momentum is the price minus the mean of the last 20 prices (those of low-volume calls included; the first price stands for the missing ones), volatility the standard deviation of the changes among them, and a breakout is a ratio above 2. The result of a call is this one when its volume exceeds 1000; other calls return the previous result again, and before the first such call NaN with is_breakout true.", "quantifier": "all price and volume streams below 2^31 steps", "why_tests_cant": "any history of events", "anchors": ["src/wax/flax/examples/transform_compositions.py:volume_breakout_detector"]}
{"id": "C103", "title": "complete_trading_system respects its position limit", "statement": "Whatever prices and volumes, the position is NaN or at most 10%; for positive prices each component is the documented statistic of the history and the position is at most 0.1/(1+volatility), so the final clipping never acts.", "quantifier": "all price and volume streams", "why_tests_cant": "any history, NaN and infinities included", "anchors": ["src/wax/flax/examples/transform_compositions.py:complete_trading_system"]}
{"id": "C104", "title": "adaptive_position_sizing never exceeds the risk", "statement": "For a non-negative risk per trade the position is the signal clipped to [-1,1] times the risk: at most the risk, of the sign of the signal, increasing with it; NaN gives NaN.", "quantifier": "all signals and risks", "why_tests_cant": "all real signals", "anchors": ["src/wax/flax/examples/transform_compositions.py:adaptive_position_sizing"]}
{"id": "C105", "title": "Functions given to update_on_event can be initialised", "statement": "The first call of a function decorated with update_on_event succeeds. (True exactly when every leaf of its output is an array; false for the shipped high_price_signal and volume_based_signal, whose outputs contain a Python bool.)", "quantifier": "all output structures", "why_tests_cant": "any number of leaves", "anchors": ["src/wax/flax/core/streaming_transforms.py:ConditionalComputation", "src/wax/flax/examples/conditional_computation_demo.py:high_price_signal"]}
{"id": "C106", "title": "portfolio_manager keeps the assets apart", "statement": "The signals of an asset depend on that asset's prices only. (True when all calls give the assets in the same order; false otherwise: the states follow the position in the dictionary.)", "quantifier": "all processors, asset lists and price histories", "why_tests_cant": "any history and order", "anchors": ["src/wax/flax/examples/streaming_demo.py:portfolio_manager"]}
{"id": "C107", "title": "A Python loop and lax.scan agree", "statement": "Feeding a sequence to a streaming function in a Python loop or in one lax.scan gives the same outputs and final state, and either may be stopped anywhere and resumed by the other.", "quantifier": "all step functions, states, sequences", "why_tests_cant": "any length", "anchors": ["src/wax/flax/examples/jax_scan_compatibility.py:process_with_for_loop", "src/wax/flax/examples/jax_scan_compatibility.py:process_with_jax_scan"]}
{"id": "C108", "title": "cumulative_returns_with_reset accumulates returns", "statement": "The output accumulates the logarithmic returns since the last negative price. (False: every output is a function of the current price alone.)", "quantifier": "all price streams", "why_tests_cant": "independence of any history", "anchors": ["src/wax/flax/examples/transform_compositions.py:cumulative_returns_with_reset"]}
{"id": "C109", "title": "The pandas numba EWMA processes columns by name, chunk by chunk", "statement": "df.wax.ewm(...).mean(state): every call returns a frame with the index and columns of its input; when data arrives in chunks, each processed with the state returned for the one before, a column that was in every chunk has the values it would have if processed in one go and alone, whatever the column order and the other columns; a column missing from one chunk is NaN in all later ones; a series continues only from a state saved under the same name; the only errors are com <= 0 and an empty frame without a state.", "quantifier": "all configurations, frames, chunkings, column orders", "why_tests_cant": "any number of chunks and columns", "anchors": ["src/wax/numba/ewma_numba.py:NumbaExponentialMovingWindow"]}
{"id": "C110", "title": "UpdateOnEvent freezes the wrapped module's state and nothing else", "statement": "In Haiku, when the event does not occur, after the call every state of the wrapped module, of the modules inside it and of its submodules has the value it had before, and every other module (also one whose name has the wrapped one's as a prefix) keeps what the call wrote; when it occurs the state is the one left by the call. State names contain no slash.", "quantifier": "all frames, module names, wrapped modules", "why_tests_cant": "any set of modules and states", "anchors": ["src/wax/modules/update_on_event.py:UpdateOnEvent", "src/wax/modules/update_on_event.py:set_params_or_state_dict"]}
{"id": "C111", "title": "Callbacks given to Agent.unroll are additional", "statement": "The callbacks passed to unroll run in addition to the active ones, whether given as Callback objects or as their tuples. (False: they replace the active ones, and a Callback object raises TypeError.)", "quantifier": "all environments, agents, callback lists, numbers of steps", "why_tests_cant": "any agent, environment and callbacks", "anchors": ["src/wax/gym/agent.py:Agent.unroll", "src/wax/gym/callbacks/callbacks.py:unpack_callbacks"]}
{"id": "C112", "title": "The progress bar counts environment steps", "statement": "After the first gym_unroll with a ProgressBar callback the bar is closed and shows exactly the number of environment steps, whatever the other callbacks; used for further unrolls, it counts their steps too. (The last part is false: the closed bar is kept and ignores updates, so later unrolls are not shown.)", "quantifier": "all agents, environments, callbacks, episode lengths, earlier uses", "why_tests_cant": "any number of steps and any callbacks", "anchors": ["src/wax/gym/callbacks/progressbar.py:ProgressBar"]}
{"id": "C113", "title": "Record.get_outputs stacks the recorded outputs leaf by leaf in time order", "statement": "When every recorded output has the same leaves, get_outputs returns the structure of one output whose k-th leaf is the stack, in time order, of the k-th leaves; it raises when nothing was recorded.", "quantifier": "all sequences of outputs and all stacking functions", "why_tests_cant": "any length and structure", "anchors": ["src/wax/gym/callbacks/record.py:Record.get_outputs"]}
{"id": "C114", "title": "assert_tree_all_close accepts exactly close trees", "statement": "For leaves of equal lengths it passes exactly when the tree definitions agree (if asked), leaves are pairwise of the same type and dtype, and elementwise close (equal for int32/uint32 and for Python numbers). It is not reflexive on NaN, not symmetric, and broadcasts arrays of length 1.", "quantifier": "all trees of numbers and one-dimensional arrays", "why_tests_cant": "all values, including NaN and infinities", "anchors": ["src/wax/testing.py:assert_tree_all_close"]}
{"id": "C115", "title": "Dataset schemas register exactly the variables to encode; get_unique_dtype", "statement": "get_dataset_schema gives an encoder to exactly the variables and coordinates of a registered dtype, with check=True it raises when one does not round-trip, and a dataset encoded with its schema decodes to itself; get_unique_dtype returns t exactly when there is at least one leaf and all have dtype t.", "quantifier": "all datasets, dtypes, encoders", "why_tests_cant": "any variables", "anchors": ["src/wax/stream.py:get_dataset_schema", "src/wax/utils.py:get_unique_dtype"]}
{"id": "C116", "title": "streaming_signal_processor computes the documented indicators", "statement": "At every step recent_prices are the last ten prices (0 before), fast_ma/slow_ma the exponentially weighted means of all prices so far (0.3, 0.1), volatility the exponentially weighted mean (0.2) of the distances of each price from the slow mean of its own step (so not negative), momentum fast minus slow, signal tanh(momentum/(volatility+1e-6)); the signal is in [-1,1] or NaN for any input; with a constant price it is tanh(0).", "quantifier": "all price streams below 2^31 steps", "why_tests_cant": "the means depend on the whole history", "anchors": ["src/wax/flax/examples/streaming_demo.py:streaming_signal_processor"]}
{"id": "C117", "title": "Buffer statistics of the scan demos and of the baseline", "statement": "smoothed is the exponentially weighted mean of all prices; buffer_mean is the sum of the last n prices over n and buffer_std the standard deviation of the last n prices preceded by zeros (so both are biased during the first n steps); in always_updating_baseline the missing prices count as 100.", "quantifier": "all price streams, buffer lengths, smoothing factors", "why_tests_cant": "whole history", "anchors": ["src/wax/flax/examples/jax_scan_compatibility.py:streaming_processor", "src/wax/flax/examples/scan_validation.py:simple_processor", "src/wax/flax/examples/conditional_computation_demo.py:always_updating_baseline"]}
{"id": "C118", "title": "The example predictors do not depend on what the optimiser learns", "statement": "adaptive_price_predictor returns 1.1 times the exponentially weighted mean of its features whatever the targets, loss and optimiser; ensemble_predictor(price, volume, target) returns and learns the same whatever the target.", "quantifier": "all feature, volume and target streams, losses, optimisers", "why_tests_cant": "any history and any optimiser", "anchors": ["src/wax/flax/examples/transform_compositions.py:adaptive_price_predictor", "src/wax/flax/examples/transform_compositions.py:ensemble_predictor"]}
{"id": "C119", "title": "tree_lag delays a pytree leaf by leaf", "statement": "On successive arguments of the same structure, the result is the arguments of shift steps before in the same structure (None stays None), and the fill value in every leaf before; the Flax version returns the same.", "quantifier": "all structures, shifts, streams (Flax: below 2^31 steps)", "why_tests_cant": "any structure and history", "anchors": ["src/wax/modules/lag.py:tree_lag", "src/wax/flax/modules/lag.py:tree_lag"]}
{"id": "C120", "title": "Profiling summary reports the right statistics", "statement": "After any session of recordings, resets and switching on/off, ProfileResult.get_summary reports: the number of recordings in force and their throughput; total, mean, median, maximum, minimum and sample standard deviation of the execution times, peak and mean memory, the sum of the positive memory changes and the min/max memory ratio, of the last max_history recordings; get_module_summary the same for one module; mean and median lie between min and max; without recordings there is no summary and create_performance_report raises.", "quantifier": "every session, capacity, threshold and readings", "why_tests_cant": "All histories and all readings; tests check a few numbers.", "anchors": ["src/wax/flax/debug/profiler.py:ProfileResult.get_summary", "src/wax/flax/debug/profiler.py:StreamingProfiler.finalize", "src/wax/flax/debug/profiler.py:StreamingProfiler.get_module_summary", "src/wax/flax/debug/profiler.py:create_performance_report"]}
{"id": "C121", "title": "Optimization recommendations are given exactly when due", "statement": "generate_optimization_recommendations returns, in a fixed order, exactly the recommendations whose condition holds: a step longer than three times the mean, more than 100 MB of positive memory changes, more than 10% of compilations, more than half of the inputs above 1 MB, and for each module with two recordings or more in order of first appearance a standard deviation above half the mean. (Findings: a wrapped function with constant durations is always reported as variable; the first memory change is the whole resident memory; numpy inputs have size 0.)", "quantifier": "every session", "why_tests_cant": "All histories.", "anchors": ["src/wax/flax/debug/profiler.py:StreamingProfiler.generate_optimization_recommendations", "src/wax/flax/debug/profiler.py:StreamingProfiler._calculate_data_size", "src/wax/flax/debug/profiler.py:profile_streaming"]}
{"id": "C122", "title": "Reset gives a fresh profiler or tracker", "statement": "After reset() a profiler or memory tracker behaves, in every later session, exactly like a new one (keeping only whether it is enabled).", "quantifier": "every history before and after the reset", "why_tests_cant": "All histories.", "anchors": ["src/wax/flax/debug/profiler.py:StreamingProfiler.reset", "src/wax/flax/debug/memory_tracker.py:MemoryTracker.reset", "src/wax/flax/debug/debugger.py:StreamingDebugger.clear_history"]}
{"id": "C123", "title": "Memory summaries and severities", "statement": "get_memory_summary and get_module_memory_analysis describe exactly the retained snapshots of the requests in force (count, current, peak, minimum, mean, growth), leaks are critical above 100 MB, high above 50, medium above 20, otherwise low, and critical plus high leaks are at most all leaks.", "quantifier": "every session, interval, threshold and capacity", "why_tests_cant": "All histories.", "anchors": ["src/wax/flax/debug/memory_tracker.py:MemoryTracker.get_memory_summary", "src/wax/flax/debug/memory_tracker.py:MemoryTracker.get_module_memory_analysis", "src/wax/flax/debug/memory_tracker.py:MemoryTracker._record_memory_leak"]}
{"id": "C124", "title": "Debugger summary, export and ready-made conditions", "statement": "get_summary reports the number of steps, the hit counts and the statistics of all measured durations; export_events accepts only 'dict'; value_threshold is a strict comparison with missing fields counting as 0; a performance monitor alerts at exactly the steps that took longer than its threshold. (The last part is false for steps without a measured duration: the last measured one is used again.)", "quantifier": "every session, threshold and input", "why_tests_cant": "All histories.", "anchors": ["src/wax/flax/debug/debugger.py:StreamingDebugger.get_summary", "src/wax/flax/debug/debugger.py:StreamingDebugger.export_events", "src/wax/flax/debug/debugger.py:value_threshold", "src/wax/flax/debug/debugger.py:StreamingDebugger.add_performance_monitor"]}
{"id": "C125", "title": "Debugger snapshots do not change afterwards", "statement": "A state recorded by the debugger, in its history or in a hook event, keeps the value it had, whatever is later assigned inside the live state. (False: hook events copy only the outermost container, and numpy arrays are never copied.)", "quantifier": "every state and every sequence of later assignments", "why_tests_cant": "Aliasing shows only for particular later mutations.", "anchors": ["src/wax/flax/debug/debugger.py:DebugHook._deep_copy_state", "src/wax/flax/debug/debugger.py:StreamingDebugger._safe_copy_state"]}
{"id": "C126", "title": "A profiling result does not change afterwards", "statement": "The ProfileResult returned by finalize() keeps its contents whatever the profiler records later. (False for its bottlenecks: the list is the profiler's own, which grows and which reset() empties.)", "quantifier": "every later session", "why_tests_cant": "All later histories.", "anchors": ["src/wax/flax/debug/profiler.py:StreamingProfiler.finalize", "src/wax/flax/debug/profiler.py:StreamingProfiler.reset"]}
{"id": "C127", "title": "Data flow tracker contents", "statement": "After any session of record_data, step, queries and clear_history, get_recent_data(n) (n >= 1) returns the last min(n, max_history) points recorded since the last clearing, in order, each with the number of step() calls so far and the time since the clearing; get_module_history the last max_history of those of one module, and with a data_type those of them of that type; step_count the number of step() calls since then. Queries change no later answer; step numbers never decrease.", "quantifier": "every session, capacity and values", "why_tests_cant": "All histories; tests record a handful of points.", "anchors": ["src/wax/flax/visualization/data_flow_visualizer.py:DataFlowTracker"]}
{"id": "C128", "title": "Tracking flags", "statement": "A tracker built with track_inputs/track_outputs/track_states=False keeps no data of that kind. (False: the flags are ignored.)", "quantifier": "every flag combination and session", "why_tests_cant": "All sessions.", "anchors": ["src/wax/flax/visualization/data_flow_visualizer.py:DataFlowTracker.record_data"]}
{"id": "C129", "title": "get_recent_data(n) returns at most n points", "statement": "For every n >= 0 get_recent_data(n) returns at most n points. (False for n = 0, which returns everything; true for n >= 1.)", "quantifier": "every tracker and n", "why_tests_cant": "All trackers and n.", "anchors": ["src/wax/flax/visualization/data_flow_visualizer.py:DataFlowTracker.get_recent_data"]}
{"id": "C130", "title": "Flow animation", "statement": "create_flow_animation shows in frame f of F exactly the points of the first f/F of the recording, frames only grow, the last frame shows everything, and the tracker is unchanged afterwards. (False: the last step is never shown; an exception while drawing leaves the tracker truncated.)", "quantifier": "every recording, number of frames and drawing outcome", "why_tests_cant": "All recordings and crash points of the drawing.", "anchors": ["src/wax/flax/visualization/data_flow_visualizer.py:create_flow_animation"]}
{"id": "C131", "title": "Flow rate", "statement": "The flow rates drawn are, for every run of ten consecutive points with positive duration, ten divided by its duration, at its last point. (False for the run that ends with the last point: it is never drawn.)", "quantifier": "every recording", "why_tests_cant": "All recordings.", "anchors": ["src/wax/flax/visualization/data_flow_visualizer.py:DataFlowVisualizer._update_matplotlib_plot"]}
{"id": "C132", "title": "Monitoring dashboard", "statement": "After any session, the data endpoint returns 404 for a pipeline never registered and otherwise the last 100 points recorded for it since its last registration with its step count; recording for an unregistered pipeline changes nothing; pipelines do not influence each other; total_calls counts its steps; the alerts are the last 100 readings strictly above their thresholds; the performance endpoint gives the last 50 readings of each metric, the current one and their mean.", "quantifier": "every session of registrations, recordings and steps, every configuration", "why_tests_cant": "All interleavings over pipelines.", "anchors": ["src/wax/flax/visualization/interactive_dashboard.py:InteractiveDashboard.register_pipeline", "src/wax/flax/visualization/interactive_dashboard.py:InteractiveDashboard.record_pipeline_data", "src/wax/flax/visualization/interactive_dashboard.py:InteractiveDashboard._update_performance_metrics", "src/wax/flax/visualization/interactive_dashboard.py:InteractiveDashboard.step_pipeline"]}
{"id": "C133", "title": "Live plots", "statement": "A stream of a live plot shows the last max_points points sent to it since it was added, and never more than max_points, whatever is sent to other streams or figures. (False for the Bokeh plot with max_points = 0, which keeps everything.)", "quantifier": "every session, capacity, stream and figure", "why_tests_cant": "All interleavings over streams.", "anchors": ["src/wax/flax/visualization/bokeh_viz.py:BokehStreamingPlot.update_stream", "src/wax/flax/visualization/jupyter_viz.py:StreamingDataVisualizer.update_stream"]}
{"id": "C134", "title": "Animated stages", "statement": "In the animated pipeline flow the trace of a stage shows the recent points of the module of that name. (False when the name contains ' Data'.)", "quantifier": "every stage name and recording", "why_tests_cant": "All names.", "anchors": ["src/wax/flax/visualization/jupyter_viz.py:AnimatedPipelineFlow._animate_flow"]}
{"id": "C135", "title": "Nodes of the computation graph", "statement": "The graph of a Flax function has exactly one node for the function, called main, and one per module that holds parameters, identified by the dotted path of the module and carrying its own name and the type inferred from its name and parameters; identifiers are unique.", "quantifier": "every parameter tree with Flax names (distinct, non-empty, without dots), every nesting", "why_tests_cant": "All trees, all depths.", "anchors": ["src/wax/flax/visualization/computation_graph.py:ComputationGraphRenderer.analyze_streaming_function", "src/wax/flax/visualization/computation_graph.py:ComputationGraphRenderer._extract_modules_from_params"]}
{"id": "C136", "title": "Edges of the computation graph", "statement": "The graph has an edge from a module to each of its submodules, and edges only between nodes of the graph. (False: the graph of a Flax function never has an edge, whatever its modules; what holds is that an edge would join two nodes.)", "quantifier": "every parameter tree", "why_tests_cant": "All trees, all depths.", "anchors": ["src/wax/flax/visualization/computation_graph.py:ComputationGraphRenderer._extract_modules_from_params"]}
{"id": "C137", "title": "Levels of the nested graph", "statement": "The hierarchical analysis terminates; it gives a forest on the nodes of the graph (and clusters); the level of a node is the number of its ancestors; levels lists each node once, under its level, in increasing order. With clustering, for identifiers that do not begin with cluster_.", "quantifier": "every graph, minimal cluster size, clustered or not", "why_tests_cant": "All graphs, all depths.", "anchors": ["src/wax/flax/visualization/nested_graph_viz.py:HierarchicalGraphAnalyzer.analyze_streaming_function", "src/wax/flax/visualization/nested_graph_viz.py:HierarchicalGraphAnalyzer._assign_hierarchy_levels"]}
{"id": "C138", "title": "Nesting of the nested graph", "statement": "A node is drawn inside another one exactly when the other one's module contains its module. (False: for a Flax function no two nodes are modules one of which contains the other, and every nesting drawn between modules comes from the spelling of their names: norm_1 inside norm. Flat when no name begins another.)", "quantifier": "every parameter tree", "why_tests_cant": "All trees, all names.", "anchors": ["src/wax/flax/visualization/nested_graph_viz.py:HierarchicalGraphAnalyzer._infer_parent_relationship"]}
{"id": "C139", "title": "Drawing of the nested graph", "statement": "The Graphviz drawing has every node exactly once, the box of a node has exactly its descendants, and an edge joins a to b, once, exactly when a is the parent of b. The identifiers of the elements given to Cytoscape are unique. (False for Cytoscape: the edge from a to a_b has the identifier of a node a_a_b; true without underscores.)", "quantifier": "every graph, clustered or not", "why_tests_cant": "All graphs, all depths.", "anchors": ["src/wax/flax/visualization/nested_graph_viz.py:GraphvizNestedRenderer._render_hierarchy_recursive", "src/wax/flax/visualization/nested_graph_viz.py:GraphvizNestedRenderer._add_hierarchy_edges", "src/wax/flax/visualization/nested_graph_viz.py:CytoscapeNestedRenderer"]}
{"id": "C140", "title": "Summary of the nested graph", "statement": "The summary counts all nodes, gives the largest depth, and counts the nodes of every type and of every level; both tables add up to the total.", "quantifier": "every graph, clustered or not", "why_tests_cant": "All graphs.", "anchors": ["src/wax/flax/visualization/nested_graph_viz.py:NestedGraphVisualizer.get_hierarchy_summary"]}
{"id": "C141", "title": "Automatic clusters", "statement": "With clustering every type that has at least cluster_min_nodes root nodes gets exactly one cluster, a root whose children are those nodes in order; other types are left alone, nodes with a parent keep it and nothing else is added. For identifiers that do not begin with cluster_ (a module with the name of a cluster would become its own parent).", "quantifier": "every graph and minimal size", "why_tests_cant": "All graphs.", "anchors": ["src/wax/flax/visualization/nested_graph_viz.py:HierarchicalGraphAnalyzer._auto_cluster_nodes"]}
{"id": "C142", "title": "Inferred module types", "statement": "The type shown for a module is decided by the first rule that applies: averages (name contains ewma in any case, or an alpha or logcom parameter), buffers, attention, state machines, composites, dense layers (kernel or weight), otherwise Module; in the nested graph averages, buffers and the three kinds of state managers have their own class, dense layers are unknown and the rest module.", "quantifier": "every name and parameter dictionary", "why_tests_cant": "All names and parameter sets.", "anchors": ["src/wax/flax/visualization/computation_graph.py:ComputationGraphRenderer._infer_module_type", "src/wax/flax/visualization/nested_graph_viz.py:HierarchicalGraphAnalyzer._classify_node_type"]}
{"id": "C143", "title": "MaskMean along an axis is the mean of each line", "statement": "For an array of any rank and a mask of the same shape, MaskMean with axis=None is the masked mean of every entry, and with any axis the array has (negative ones included) the result has the remaining axes and each entry is the masked mean of the line through it; a mask of another shape and an axis the array does not have are refused.", "quantifier": "every rank, shape, mask, array and axis", "why_tests_cant": "Tests fix a rank; the claim is about every rank and axis.", "anchors": ["src/wax/modules/mask_mean.py:MaskMean", "src/wax/modules/apply_mask.py:ApplyMask"]}
{"id": "C144", "title": "MaskStd along an axis is the standard deviation of each line", "statement": "For an array of any rank and a mask of its shape, MaskStd with an axis returns, for each line along that axis, the masked standard deviation of the line. (True for axis=None, for assume_centered, and along an axis preceded only by axes of length 1; otherwise the call raises or centres entries with other lines' means.)", "quantifier": "every rank, shape, mask, array and axis", "why_tests_cant": "Depends on how shapes broadcast against each other, for every rank.", "anchors": ["src/wax/modules/mask_std.py:MaskStd"]}
{"id": "C145", "title": "MaskNormalize divides each entry by its own line's standard deviation", "statement": "MaskNormalize with an axis returns an array of the input's shape in which each entry is divided by the standard deviation of the line it lies on (NaN and infinite quotients become 0). (True along an axis preceded only by axes of length 1 and for axis=None; with axis=1 on a matrix the rows' deviations divide the columns, and a single column becomes a square matrix.)", "quantifier": "every rank, shape, mask, array and axis", "why_tests_cant": "Depends on how shapes broadcast against each other.", "anchors": ["src/wax/modules/mask_normalize.py:MaskNormalize"]}
{"id": "C146", "title": "Flax masked statistics agree with Haiku's", "statement": "Flax ApplyMask, MaskMean and MaskStd return the Haiku result on every mask and axis Haiku accepts and refuse what Haiku refuses. (True for masks of the data's shape along axis 0, axis 1 of a matrix, or None; a mask of another shape is broadcast instead of refused, a per-column mask with axis=1 raises in MaskMean, and axis=1 of a 3-dimensional array is refused.)", "quantifier": "every rank, shape, mask, array and axis", "why_tests_cant": "The accepted shapes form an infinite set.", "anchors": ["src/wax/flax/modules/apply_mask.py:ApplyMask", "src/wax/flax/modules/mask_mean.py:MaskMean", "src/wax/flax/modules/mask_std.py:MaskStd"]}
{"id": "C147", "title": "Flax MaskNormalize divides each entry by its own line's standard deviation", "statement": "Flax MaskNormalize with an axis returns an array of the input's shape in which each entry is divided by the standard deviation of the line it lies on. (True for axis 0 of any rank and axis=None; with axis=1 on a matrix the rows' deviations divide the columns.)", "quantifier": "every rank, shape, mask, array and axis", "why_tests_cant": "Depends on how shapes broadcast against each other.", "anchors": ["src/wax/flax/modules/mask_normalize.py:MaskNormalize"]}
{"id": "C148", "title": "Pattern modules and default optimisers are ordinary Flax modules", "statement": "Every Flax module of the library can be initialised and applied, handed to another module, and created in a compact method or a setup. (False: HierarchicalState, ConditionalStateUpdate and StreamingStateMachine only work when created in the setup of another module, and the decorators hierarchical_composition, conditional_update and state_machine always raise; OnlineOptimizer and UpdateParams without an explicit predicate always raise, as does FuncOptimizer of a Flax module; a HierarchicalStateMachine raises exactly when a state is called 'modules'. Proved exactly, and that every class with a generated constructor whose setup assigns no field works in all four ways.)", "quantifier": "every class, constructor argument, state name, predicate and way of using the instance", "why_tests_cant": "tests use a handful of instances and never construct the failing classes", "anchors": ["src/wax/flax/core/streaming_transforms.py:HierarchicalState", "src/wax/flax/core/streaming_transforms.py:ConditionalStateUpdate", "src/wax/flax/core/streaming_transforms.py:StreamingStateMachine", "src/wax/flax/modules/online_optimizer.py:OnlineOptimizer.setup", "src/wax/flax/modules/update_params.py:UpdateParams.setup", "src/wax/flax/core/advanced_state_patterns.py:HierarchicalStateMachine.setup"]}
{"id": "C149", "title": "Haiku optimisers accept stateful functions and a missing predicate", "statement": "Haiku FuncOptimizer, OnlineSupervisedLearner and OnlineOptimizer train any function, with or without state, and params_predicate=None means every parameter. (False: FuncOptimizer refuses every function with Haiku state, None is refused by both as soon as there is a parameter; the accepted cases start from the predicate's partition.)", "quantifier": "every function, initial parameters, initial state, predicate and optimiser", "why_tests_cant": "the refusal depends on the function given", "anchors": ["src/wax/modules/update_params.py:get_init_params", "src/wax/modules/func_optimizer.py:FuncOptimizer", "src/wax/modules/online_optimizer.py:OnlineOptimizer"]}
{"id": "C150", "title": "Flax OnlineOptimizer trains stateful models", "statement": "The Flax OnlineOptimizer trains a stateful Flax module, and a plain function returning its loss or a pair (loss, aux), carrying its state from call to call. (False: a Flax module that writes a variable makes the call raise, a plain function returning a pair raises, a plain function returning its loss restarts at every call; a module that writes nothing is trained as in C53/C84.)", "quantifier": "every model, parameters, optimiser and history", "why_tests_cant": "behaviour over whole training histories and all models", "anchors": ["src/wax/flax/modules/online_optimizer.py:OnlineOptimizer.__call__"]}
{"id": "C151", "title": "Flax FuncOptimizer selects parameters by module name", "statement": "The params_predicate of the Flax FuncOptimizer receives module names, as those of the Haiku optimisers and of the Flax OnlineOptimizer do. (False: it receives the name of the variable collection; a predicate selecting a module by name trains nothing.)", "quantifier": "every module, variable collection and predicate", "why_tests_cant": "holds for every predicate and parameter tree", "anchors": ["src/wax/flax/modules/func_optimizer.py:FuncOptimizer.__call__", "src/wax/flax/modules/update_params.py:UpdateParams.partition_params"]}
{"id": "C152", "title": "Unrolling nested data is unrolling its steps", "statement": "On nested arguments whose leaves have the same length, unroll (static or dynamic, with or without skip_first, parameters and state given or not) cuts every leaf along its first axis, runs the function on the successive pieces and stacks every output leaf: same errors, outputs and final state as feeding the steps one by one. Options of an already unrolled pair win over those passed to unroll.", "quantifier": "every function, number of leaves and outputs, length, state, parameters, key", "why_tests_cant": "all shapes of nested data and all lengths", "anchors": ["src/wax/unroll.py:unroll_transform_with_state", "src/wax/unroll.py:static_scan", "src/wax/unroll.py:iter_first_axis"]}
{"id": "C153", "title": "static_scan behaves as jax.lax.scan", "statement": "static_scan is a Python implementation of jax.lax.scan: same errors and results on leaves of different lengths, and with xs=None and a length. (False: lax.scan raises on different lengths, static_scan follows the first leaf, cuts longer leaves and repeats the last entry of shorter JAX leaves; with xs=None it always raises. Proved exactly.)", "quantifier": "every function and nested data", "why_tests_cant": "all combinations of lengths", "anchors": ["src/wax/unroll.py:static_scan", "src/wax/unroll.py:iter_first_axis"]}
{"id": "C154", "title": "Random keys of the lifted transforms", "statement": "vmap_lift_with_state / unroll_lift_with_state: split_rng=True with init_rng=False is refused; initialisation needs a key exactly when init_rng=True; without split_rng no inner call gets a key at apply and the result does not depend on the key given; with split_rng the batched apply needs a key and element b gets its own (b-th) part of the first drawn key, and step t of the unrolled apply gets the t-th drawn key (none if no key is given).", "quantifier": "all inner functions (which may raise), keys, splitting functions, batches, sequences, flags", "why_tests_cant": "the assignment of keys must hold for every batch size and every sequence length, and independence from the key is a statement about all keys", "anchors": ["src/wax/stateful.py:vmap_lift_with_state", "src/wax/stateful.py:unroll_lift_with_state"]}
{"id": "C155", "title": "Interactive breakpoints", "statement": "At a breakpoint the typed lines are answered in order until one continues or quits (end of file continues); unless the user quits, the debugger ends the step exactly as without a breakpoint; when the user quits, KeyboardInterrupt leaves the step with the event recorded, the hooks added earlier updated, the later ones untouched and the function's result lost.", "quantifier": "all typed lines, hooks, conditions, steps", "why_tests_cant": "the terminal session and the set of hooks are arbitrary", "anchors": ["src/wax/flax/debug/debugger.py:DebugHook._interactive_break", "src/wax/flax/debug/debugger.py:StreamingDebugger.step"]}
{"id": "C156", "title": "Stacked debugging decorators are transparent", "statement": "For any stack of debug_streaming, profile_streaming and track_memory_usage around a transform that can be built, apply returns or raises what the function does, and each tool records once per call in nesting order under its module name (or the fallback name of the innermost wrapper).", "quantifier": "all stacks of decorators, functions, arguments, exceptions", "why_tests_cant": "stacks of any height and any function", "anchors": ["src/wax/flax/debug/debugger.py:debug_streaming", "src/wax/flax/debug/profiler.py:profile_streaming", "src/wax/flax/debug/memory_tracker.py:track_memory_usage"]}
{"id": "C157", "title": "The decorators' module name is optional and the interface is kept", "statement": "Decorating a transform without a module name works, and the decorated object has the same methods (init, apply, scan).", "quantifier": "all transforms and stacks", "why_tests_cant": "any stack and transform", "anchors": ["src/wax/flax/debug/debugger.py:debug_streaming", "src/wax/flax/debug/profiler.py:profile_streaming", "src/wax/flax/debug/memory_tracker.py:track_memory_usage", "src/wax/flax/core/streaming_transforms.py:StreamingTransform"]}
{"id": "C158", "title": "The DOT export of a computation graph can be read back", "statement": "Reading the DOT text exported for a graph whose identifiers, names, types, labels, parameter texts and shapes contain no double quote, backslash or line break gives exactly the nodes of the graph with the labels the renderer builds for them, in order, followed by exactly its edges with source, target and label; truncation of names, omitted default attributes and the options for shapes and parameters never change which statements are read.", "quantifier": "all graphs with clean texts, all options, all number formats", "why_tests_cant": "the set of graphs and texts is unbounded, and quoting errors appear only for particular combinations of texts", "anchors": ["src/wax/flax/visualization/computation_graph.py:_generate_dot_content", "src/wax/flax/visualization/computation_graph.py:_create_node_label"]}
{"id": "C159", "title": "The DOT export is well formed for every example input", "statement": "The node created for an analysed function is exported as a well-formed DOT statement whose label is the one built by the renderer, whatever the example input (arrays, sequences, dictionaries, nested dictionaries). False of the code: it holds exactly when the example input is not a dictionary with a non-empty dictionary among its values.", "quantifier": "all example inputs with clean keys, all names and parameters", "why_tests_cant": "the dependence on the nesting depth comes from the quoting rules of repr at every level", "anchors": ["src/wax/flax/visualization/computation_graph.py:_get_shape", "src/wax/flax/visualization/computation_graph.py:_create_node_label"]}
{"id": "C160", "title": "Heatmaps put every cell in its place", "statement": "The data source of a Bokeh heatmap of an array with h rows and w columns has exactly h*w rectangles, and the rectangle of row r and column c is at x = c, y = r with the value of that cell.", "quantifier": "all arrays", "why_tests_cant": "tests check one small array, if any", "anchors": ["src/wax/flax/visualization/bokeh_viz.py::BokehHeatmapVisualizer"]}
{"id": "C161", "title": "Time series panel", "statement": "After any session on a tracker the time series panel has one line per module with a numeric value among the last min(200, max_history) points in force, in order of first appearance, holding exactly these values with their steps in order; other values are not shown.", "quantifier": "all sessions of recordings, steps and clearings, all history sizes", "why_tests_cant": "depends on the whole history", "anchors": ["src/wax/flax/visualization/bokeh_viz.py::BokehMultiPanelDashboard._create_time_series_panel"]}
{"id": "C162", "title": "Distribution panel is a histogram", "statement": "The distribution panel has thirty adjacent bars of equal width from the least to the greatest numeric value among the last min(500, max_history) points (half a unit around a single value); the height of a bar is the number of values in its interval, the last one closed; the heights add up to the number of values.", "quantifier": "all sessions of recordings, steps and clearings", "why_tests_cant": "boundary values, ties and single values", "anchors": ["src/wax/flax/visualization/bokeh_viz.py::BokehMultiPanelDashboard._create_distribution_panel"]}
{"id": "C163", "title": "Performance and correlation panels show measurements", "statement": "The performance panel shows the processing times and the correlation panel the correlations of the modules of the tracker it is given.", "quantifier": "all trackers", "why_tests_cant": "needs all trackers: the panels do not depend on what was recorded", "anchors": ["src/wax/flax/visualization/bokeh_viz.py::BokehMultiPanelDashboard._create_performance_panel", "src/wax/flax/visualization/bokeh_viz.py::BokehMultiPanelDashboard._create_correlation_panel"]}
{"id": "C164", "title": "Values sent to the browser", "statement": "A recorded value reaches the browser as: numbers, texts and booleans unchanged; dictionaries with the same keys in order; sequences of at most ten items item by item, longer ones as their length; arrays of at most ten elements as nested lists of the same shape with each element at its multi-index, larger ones as shape, dtype, minimum, maximum and mean; anything else as type name and text.", "quantifier": "all nested values", "why_tests_cant": "unbounded nesting, all shapes", "anchors": ["src/wax/flax/visualization/interactive_dashboard.py::InteractiveDashboard._serialize_value"]}
{"id": "C165", "title": "Parameter controls follow the user", "statement": "After any interleaving of panel creations, callback registrations and changes by the user, get_parameters() lists every parameter a widget was ever created for, in order of first creation, with the current value of its latest widget; every change of any widget calls every callback registered so far exactly once, in order, with the parameters after the change, whatever earlier callbacks raise.", "quantifier": "all interleavings of panel creations, registrations and user changes", "why_tests_cant": "histories are unbounded", "anchors": ["src/wax/flax/visualization/jupyter_viz.py::InteractiveParameterControls"]}
{"id": "C166", "title": "Text plot", "statement": "The text plot of a tracker reports the number of different modules and of points among the last min(20, max_history) points in force, the number of steps, and lists the last ten of them in order; nothing recorded gives the message that there is no data.", "quantifier": "all sessions of recordings, steps and clearings", "why_tests_cant": "depends on the whole history", "anchors": ["src/wax/flax/visualization/data_flow_visualizer.py::DataFlowVisualizer._create_text_plot"]}
{"id": "C167", "title": "Gym objects: keys, resets and data order", "statement": "A HaikuAgent initialises its parameters and state on the first observation after creation or reset, then answers each observation with the state left by the previous calls and the next random key; after a reset it behaves as a new agent whose keys go on from where they were. A call that raises leaves parameters and state as they were and only consumes a key. A HaikuEnv uses data item number t for operation number t whatever the mix of resets, steps and failing steps; after a reset its function is initialised afresh on the first (action, item) pair; once the data is exhausted every step returns (None, 0, True, info of the last item) and every reset raises; len(env) is the maxlen of the last item used.", "quantifier": "all histories of calls, resets and steps, all transformed functions including raising ones, all data and key sequences", "why_tests_cant": "ranges over unbounded interleavings of resets, steps and exceptions", "anchors": ["src/wax/gym/haiku_agent.py::HaikuAgent", "src/wax/gym/haiku_env.py::HaikuEnv"]}
{"id": "C168", "title": "Compilations are counted", "statement": "The summary and the recommendations of a profiler with JIT tracking enabled (the default) count the profiled steps in which a JIT compilation occurred.", "quantifier": "all sessions of profiled calls and start_step blocks, all numbers of compilations in them", "why_tests_cant": "ranges over all sessions and all compilation patterns", "anchors": ["src/wax/flax/debug/profiler.py::StreamingProfiler._setup_jit_tracking", "src/wax/flax/debug/profiler.py::ProfilerContext", "src/wax/flax/debug/profiler.py::profile_streaming"]}
{"id": "C169", "title": "A profiled step is one step", "statement": "A step profiled with start_step or profile_streaming is recorded exactly once, with its name, its duration and (if detailed) the sizes of its input and output, whether it returns or raises; averages over a session are averages over its steps.", "quantifier": "all sessions of profiled calls, returning or raising", "why_tests_cant": "ranges over all sessions and exceptions", "anchors": ["src/wax/flax/debug/profiler.py::ProfilerContext", "src/wax/flax/debug/profiler.py::profile_streaming"]}
{"id": "C170", "title": "Changes of units", "statement": "On a stream expressed in other units (a·x + b with a > 0): Buffer and Lag carry any change of values, Diff is multiplied by a, Ffill and RollingMean and OHLC bars (Haiku and Flax) follow the change, PctChange does not depend on the scale, EWMVar is multiplied by a² and ignores b, the covariance of two components is multiplied by both scales and ignores both shifts (components with NaN at the same times), and ARMA obeys superposition; NaN, infinite and zero values included where the module allows them.", "quantifier": "all streams, scales, shifts, horizons, modes and coefficients", "why_tests_cant": "ranges over all streams and all changes of units", "anchors": ["src/wax/modules/buffer.py::Buffer", "src/wax/modules/lag.py::Lag", "src/wax/modules/diff.py::Diff", "src/wax/modules/pct_change.py::PctChange", "src/wax/modules/rolling_mean.py::RollingMean", "src/wax/modules/ohlc.py::OHLC", "src/wax/modules/ewmvar.py::EWMVar", "src/wax/modules/ewmcov.py::EWMCov", "src/wax/modules/arma.py::ARMA"]}
{"id": "C171", "title": "Composition and degenerate parameters", "statement": "Delays add up: Lag(n) of Lag(m) is Lag(m+n); a delay starting with NaN commutes with Diff and Ffill; a RollingMean over one value is the identity; EWMA with alpha = 1 is a forward fill and EWMVar with alpha = 1 is 0, in every mode.", "quantifier": "all streams, delays and modes", "why_tests_cant": "ranges over all streams and delays", "anchors": ["src/wax/modules/lag.py::Lag", "src/wax/modules/diff.py::Diff", "src/wax/modules/ffill.py::Ffill", "src/wax/modules/rolling_mean.py::RollingMean", "src/wax/modules/ewma.py::EWMA", "src/wax/modules/ewmvar.py::EWMVar"]}
{"id": "C172", "title": "The HTML page of a graph shows the whole graph", "statement": "The HTML page of a computation graph shows, in order, every node with its name, type, identifier and the details asked for, and every edge with its ends and label, and the numbers of both.", "quantifier": "all graphs, names and rendering options", "why_tests_cant": "names are arbitrary texts; a browser interprets some of them as markup", "anchors": ["src/wax/flax/visualization/computation_graph.py::ComputationGraphRenderer._generate_html_content"]}
{"id": "C173", "title": "The plain-text rendering of a graph and the parameters shown", "statement": "The plain text is a heading, one line per node with identifier, name and type, followed by its shapes and parameters if these were asked for and exist, and one line per edge. Parameters are included only if asked for, then all of them in order, arrays by shape and dictionaries by their number of entries.", "quantifier": "all graphs without line breaks in their texts, all parameter dictionaries", "why_tests_cant": "ranges over all graphs", "anchors": ["src/wax/flax/visualization/computation_graph.py::ComputationGraphRenderer._render_text", "src/wax/flax/visualization/computation_graph.py::ComputationGraphRenderer._simplify_params"]}
{"id": "C174", "title": "Results of nested graph analyses stay as returned", "statement": "A hierarchy or summary returned by a nested graph analyser describes the analysed function, and keeps doing so whatever is analysed later.", "quantifier": "all sequences of analyses with any number of analysers", "why_tests_cant": "depends on the history of later calls", "anchors": ["src/wax/flax/visualization/nested_graph_viz.py::HierarchicalGraphAnalyzer.analyze_streaming_function", "src/wax/flax/visualization/nested_graph_viz.py::NestedGraphVisualizer.get_hierarchy_summary"]}
{"id": "C175", "title": "Dashboard browsers get the updates they asked for", "statement": "Every connected browser gets, once and in order, the alerts and data of exactly the pipelines it subscribed to; a subscription is answered according to whether the pipeline is registered; disconnected browsers get nothing.", "quantifier": "all histories of connections, disconnections, subscriptions, registrations and data, all browsers", "why_tests_cant": "ranges over all histories", "anchors": ["src/wax/flax/visualization/interactive_dashboard.py::InteractiveDashboard"]}
{"id": "C176", "title": "Several threads share one debugger, profiler or memory tracker", "statement": "Whatever the scheduling of the threads that use one debugger, profiler or memory tracker, the object ends up as after all their calls made one after the other, each thread's calls in its own order; no recording is lost or counted twice.", "quantifier": "all programs of all threads and all schedules", "why_tests_cant": "the number of schedules is unbounded and the bad ones are rare", "anchors": ["src/wax/flax/debug/debugger.py::StreamingDebugger.step", "src/wax/flax/debug/profiler.py::StreamingProfiler.record_metrics", "src/wax/flax/debug/memory_tracker.py::MemoryTracker.take_snapshot"]}
{"id": "C177", "title": "The memory report agrees with itself", "statement": "The memory report is an error exactly without snapshots, says that there are no leaks exactly if none was detected, and otherwise gives the numbers of leaks, critical leaks and high ones and details the first three critical leaks, as many as it counts up to three; also while other threads use the tracker.", "quantifier": "all trackers and concurrent calls", "why_tests_cant": "depends on the schedule of other threads", "anchors": ["src/wax/flax/debug/memory_tracker.py::MemoryTracker.generate_memory_report"]}
{"id": "C178", "title": "Rounding errors of the EWMA do not accumulate", "statement": "In IEEE floating point of any precision, on a stream of values at most B in size, the EWMA (Haiku and Flax) returned at every step differs from the exact one by at most a constant times u·B·(1+com), u being the unit roundoff, however long the stream is, and is NaN at the same steps; with missing values that are not ignored (adjust True or False) the bound is a constant times u·B·(1+com)^3.", "quantifier": "all IEEE binary formats, all com that the precision can represent (64u(1+com) ≤ 1), all modes (NaN with ignore_na=False: adjust True or False), all streams of any length", "why_tests_cant": "an error that grows with the length of the stream only shows on long streams, and the worst rounding pattern is not known", "anchors": ["src/wax/modules/ewma.py::EWMA.__call__", "src/wax/flax/modules/ewma.py::EWMA.__call__"]}
{"id": "C179", "title": "A computed variance is never negative", "statement": "EWMVar never returns a negative variance in IEEE floating point, whatever the stream (NaN and infinities included): with adjust False or \"linear\" for every com, with adjust True for every com with 64u(1+com) ≤ 1 and an accurate power routine. Beyond that precision (com = 2^25 in float32) adjust True returns NaN at every observation.", "quantifier": "all rounding functions of IEEE formats, all streams", "why_tests_cant": "cancellation errors depend on the data; a square root of the output would be NaN only on rare streams", "anchors": ["src/wax/modules/ewmvar.py::EWMVar.__call__", "src/wax/flax/modules/ewmvar.py::EWMVar.__call__"]}
{"id": "C180", "title": "The average of a constant stream is the constant", "statement": "The EWMA of a stream whose observed values all equal k returns exactly k at every step from the first observation on, in floating point.", "quantifier": "all floats k, all streams of k and NaN, all implementations", "why_tests_cant": "whether the value moves depends on the rounding of k and of the weights", "anchors": ["src/wax/modules/ewma.py::EWMA.__call__", "src/wax/numba/ewma_numba.py::numba_apply"]}
{"id": "C181", "title": "Rounding errors of the rolling mean stay within the window", "statement": "In floating point, whatever order the window is summed in, the RollingMean (Haiku and Flax) returned at every step differs from the exact mean of the window by at most 2·u·horizon·B, B bounding the inputs: values that have left the window leave no error behind.", "quantifier": "all IEEE formats, summation orders, horizons with 2u·horizon ≤ 1 and streams of any length", "why_tests_cant": "errors of a running sum would only show on long streams with values of different sizes", "anchors": ["src/wax/modules/rolling_mean.py::RollingMean.__call__", "src/wax/flax/modules/rolling_mean.py::RollingMean.__call__"]}
{"id": "C182", "title": "The covariance in floating point", "statement": "In IEEE floating point, every entry of the matrix EWMCov returns at any step differs from the exact one by at most a constant times u·B²·(1+com) (B bounding the inputs), however long the stream; EWMCov(x, x) is exactly symmetric; its diagonal is never below minus that bound.", "quantifier": "all formats, modes, vectors and streams of any length (NaN with ignore_na, or with ignore_na=False and adjust True or False with (1+com)^3)", "why_tests_cant": "the error of a difference of two averages depends on the whole stream", "anchors": ["src/wax/modules/ewmcov.py::EWMCov.__call__", "src/wax/flax/modules/ewmcov.py::EWMCov.__call__"]}
{"id": "C183", "title": "The variances on the diagonal of EWMCov are not negative", "statement": "The diagonal of EWMCov(x, x) is non-negative in floating point, so that its square root is a number.", "quantifier": "all streams and configurations", "why_tests_cant": "cancellation depends on the data", "anchors": ["src/wax/modules/ewmcov.py::EWMCov.__call__"]}
{"id": "C184", "title": "EWMVar in floating point stays close to the exact variance", "statement": "With floating-point arithmetic of unit roundoff u (any IEEE 754 binary format, results rounded to nearest), on a stream of any length whose values are NaN or at most B in size, the variance EWMVar returns at every step is NaN exactly when the exact one is and otherwise within 640 u B^2 (1 + com) of it, for every adjust mode, provided 256 u (1 + com) <= 1 and no overflow or underflow of B, B^2 and 1/(1+com): rounding errors do not accumulate over time.", "quantifier": "all streams of any length with missing values anywhere, all com, all adjust modes, all rounding functions of the given precision, all sufficiently precise power routines", "why_tests_cant": "accumulation of rounding errors shows only on long streams and at particular values; tests use a handful of short series", "anchors": ["src/wax/modules/ewmvar.py:EWMVar", "src/wax/flax/modules/ewmvar.py:EWMVar"]}
{"id": "C185", "title": "Gradients through EWMA are true derivatives, whatever the missing values", "statement": "For adjust=True and adjust=False, jax.grad through the unrolled EWMA module (Haiku or Flax) gives numbers, never NaN, for every stream of numbers and missing values, and they are the derivatives of the loss with respect to the trainable parameter logcom and to every input; the gradient with respect to a missing input is 0.", "quantifier": "every stream of numbers and NaN, every weighting of the outputs in the loss, every logcom, ignore_na, min_periods and initial value, every direction", "why_tests_cant": "a NaN produced in a branch that jnp.where discards reaches the gradient only for some patterns of missing values, and finite differences on a few streams do not establish equality with the derivative", "anchors": ["src/wax/modules/ewma.py:EWMA.__call__", "src/wax/flax/modules/ewma.py:EWMA.__call__", "src/wax/unroll.py:dynamic_unroll"]}
{"id": "C186", "title": "Gradients through EWMA with adjust=\"linear\" are numbers", "statement": "jax.grad through the unrolled EWMA with adjust=\"linear\" gives numbers, never NaN, whenever the outputs are numbers, whatever the missing values.", "quantifier": "every stream of numbers and NaN, every weighting of the outputs, every logcom", "why_tests_cant": "the NaN appears only once a gap has brought the internal weight to 0, on the call after", "anchors": ["src/wax/modules/ewma.py:EWMA.__call__", "src/wax/flax/modules/ewma.py:EWMA.__call__"]}
{"id": "C187", "title": "Gradients through EWMVar are true derivatives, whatever the missing values", "statement": "jax.grad through the unrolled EWMVar gives numbers, and they are the derivatives of the loss with respect to logcom and to the data, with missing values anywhere.", "quantifier": "every stream of numbers and NaN, every weighting of the outputs, every logcom, every direction", "why_tests_cant": "whether a discarded branch poisons the gradient is not visible in the outputs, which are numbers", "anchors": ["src/wax/modules/ewmvar.py:EWMVar.__call__", "src/wax/flax/modules/ewmvar.py:EWMVar.__call__"]}
{"id": "C188", "title": "The gradient of PctChange is a number where its value is", "statement": "Where PctChange returns a number, its gradient with respect to the current and the previous value is a number, the derivative of what it returns.", "quantifier": "all current and previous values, missing or not, all losses", "why_tests_cant": "the outputs do not show the gradient, and complete series do not reach the discarded branch", "anchors": ["src/wax/modules/pct_change.py:PctChange.__call__", "src/wax/flax/modules/pct_change.py:PctChange.__call__"]}
{"id": "C189", "title": "The gradients of MaskStd and MaskNormalize are numbers", "statement": "The gradients of MaskStd and MaskNormalize with respect to the data are numbers for every mask and every data, missing or masked, and the gradient of MaskStd is the derivative where the variance is positive.", "quantifier": "all masks, all lines of data with missing values, all cotangents, all directions", "why_tests_cant": "the singular cases (no selected value, equal values) are reached only by particular data, and the gradient is not visible in the outputs", "anchors": ["src/wax/modules/mask_std.py:MaskStd.__call__", "src/wax/modules/mask_normalize.py:MaskNormalize.__call__", "src/wax/modules/fill_nan_inf.py:FillNanInf.__call__"]}
{"id": "C190", "title": "The numba and Haiku EWMA cannot drift apart in floating point", "statement": "In floating point arithmetic with unit roundoff u, on a column of any length with values of size at most B, the numba EWMA is at every row within 40 u B (1+com) of the exact mean and within twice that of what the Haiku module computes in the same arithmetic; NaN patterns coincide. With NaN values not ignored (adjust not linear) the same holds with 80 u B (1+com)^3.", "quantifier": "every com > 0, adjust mode, min_periods, initial value, column length and content (NaN allowed as stated), every rounding function of precision u", "why_tests_cant": "Tests compare the two backends on one random series with a tolerance; whether the difference can grow with the length of the column or for other values is a statement about all columns.", "anchors": ["src/wax/numba/ewma_numba.py:_ewma", "src/wax/modules/ewma.py:EWMA.__call__"]}
{"id": "C191", "title": "MaskMean in floating point", "statement": "On a line with n masked entries, each NaN or a float of size at most B, whatever the entries outside the mask (including infinities) and whatever the order of the summation, the mean computed by MaskMean is within 2 n u B of the exact mean; both are NaN exactly when nothing is masked.", "quantifier": "every line, mask, B, n with 2 u n <= 1, every summation order and every rounding of precision u", "why_tests_cant": "Tests compare with numpy on small arrays at a tolerance; a bound for all data and all reduction orders is a universally quantified numerical statement.", "anchors": ["src/wax/modules/mask_mean.py:MaskMean.__call__"]}
{"id": "C192", "title": "MaskStd in floating point", "statement": "On a line with n >= 1 masked entries, each NaN or a float of size at most B, MaskStd (centred or not) returns a non-negative number whose square is within eps + 120 n u B^2 of the exact variance, for every summation order and every square root routine accurate to 4u.", "quantifier": "every line, mask, assume_centered, n with 64 u n <= 1, B within the range of the format", "why_tests_cant": "The result depends on cancellation in x - mean and on the reduction order chosen by the compiler; tests see one order and a few arrays.", "anchors": ["src/wax/modules/mask_std.py:MaskStd.__call__"]}
{"id": "C193", "title": "MaskNormalize of constant data is zero", "statement": "MaskNormalize sends a constant line to zeros (its standard deviation is 0 and the division result is filled). True in exact arithmetic for every constant and length; false in float32: seven equal values 0.1 are sent to numbers above 65536, because the computed mean is one unit off and the standard deviation becomes sqrt(eps).", "quantifier": "every constant, every number of entries, every square root routine", "why_tests_cant": "The repository tests constant data only with values whose float mean is exact, where the output is 0.", "anchors": ["src/wax/modules/mask_normalize.py:MaskNormalize.__call__", "src/wax/modules/mask_std.py:MaskStd.__call__"]}
{"id": "C194", "title": "PctChange in floating point", "statement": "On a stream of any length whose values are NaN, 0, or between b and B in size, the change computed at every step (Haiku; Flax with pad) is within 5 u (1 + |change|) of the exact one; NaN, infinite and filled-with-0 outputs coincide exactly.", "quantifier": "every stream, both values of fillna_zero, every rounding of precision u <= 1 not overflowing at 4 (B/b + 1)", "why_tests_cant": "Tests compare with pandas on one random series.", "anchors": ["src/wax/modules/pct_change.py:PctChange.__call__", "src/wax/flax/modules/pct_change.py:PctChange.__call__"]}
{"id": "C195", "title": "EWMA keeps reporting on endless streams", "statement": "Once min_periods observations have been made, EWMA reports the average at every further observation, however long the stream lasts. (FALSE of the code when min_periods >= 1: the Haiku and Flax modules count observations with an int32 that wraps after 2^31 observations; from then on, for the next 2^31 observations, every output is NaN. True up to 2^31 - 1 observations, for ever without min_periods, and for 2^63 - 1 observations of the numba version.)", "quantifier": "every configuration, every stream of every length", "why_tests_cant": "The failing histories have more than two billion observations; no test runs that long.", "anchors": ["src/wax/modules/ewma.py:EWMA.__call__", "src/wax/flax/modules/ewma.py:EWMA.__call__", "src/wax/numba/ewma_numba.py:init"]}
{"id": "C196", "title": "The saturating counter of EWMVar is harmless", "statement": "EWMVar counts observations in the dtype of the data: in float32 the count stops at 2^24. For com up to 2^18 - 1 this never changes a result, in any adjust mode: on streams of every length the variances are those computed with an ideal counter.", "quantifier": "every com in the range, adjust mode, stream of any length with any NaN pattern", "why_tests_cant": "The counter differs from the true count only after 16 million observations; harmlessness is a statement about all longer streams.", "anchors": ["src/wax/modules/ewmvar.py:EWMVar.__call__", "src/wax/flax/modules/ewmvar.py:EWMVar.__call__"]}
{"id": "C197", "title": "A module made streaming-compatible behaves as the module", "statement": "make_streaming_compatible(module) gives a pair (init, apply) which, on every stream, returns the outputs of the module itself for the same parameters, state and keys; its parameters and state are the module's under the scope wrapped_module, and nothing outside that scope is read or written. Only the random keys differ (Flax folds the scope name into them).", "quantifier": "every Flax module, parameters, state, key and stream", "why_tests_cant": "It is a statement about an arbitrary wrapped module and all streams.", "anchors": ["src/wax/flax/core/state_utils.py:make_streaming_compatible", "src/wax/flax/core/state_utils.py:StreamingModuleWrapper", "src/wax/flax/core/transform.py:flax_transform_with_state"]}
{"id": "C198", "title": "Gradients through RollingMean are derivatives, whatever the missing values", "statement": "jax.grad of a weighted sum of the outputs of an unrolled RollingMean returns the true derivative with respect to every observed input (changing the input by delta changes the loss by delta times the gradient, because the loss is affine in each input), the gradient 0 for a missing input, and never NaN, for every horizon, min_periods, stream and pattern of missing values.", "quantifier": "all horizons, min_periods, streams without infinities, finite cotangents", "why_tests_cant": "A test differentiates one stream; NaN gradients of masked computations depend on the pattern of missing values, and the formula must hold at every step of every length.", "anchors": ["src/wax/modules/rolling_mean.py:RollingMean", "src/wax/modules/buffer.py:buffer_fn", "src/wax/unroll.py:dynamic_unroll_fori_loop"]}
{"id": "C199", "title": "Gradients through EWMCov are derivatives, whatever the missing values", "statement": "jax.grad through the unrolled EWMCov gives numbers, and they are the derivatives of the loss with respect to the three logcom parameters and to both data streams, with missing values anywhere. (FALSE of the code: where a component of x is missing the gradient of every component of y at that step is NaN, and a series that starts late gives NaN parameter gradients; true on complete data.)", "quantifier": "all numbers of components, streams of numbers and NaN, weightings of the outputs, parameters, directions", "why_tests_cant": "the outputs do not show the gradient, and complete series do not reach the NaN", "anchors": ["src/wax/modules/ewmcov.py:EWMCov", "src/wax/flax/modules/ewmcov.py:EWMCov"]}
{"id": "C200", "title": "Gradients through the Flax RollingMean are the derivative, and those of the Haiku RollingMean", "statement": "What jax.grad returns through the unrolled Flax RollingMean (a circular buffer, written in place and read back in logical order by a gather) equals what it returns through the Haiku RollingMean, for every horizon, every min_periods, every stream (missing and infinite values included) and every cotangents of the outputs, as long as fewer than 2^31 steps are taken, and for ever when the horizon is a power of two; on streams without infinities it is the derivative of the weighted sum of the outputs.", "quantifier": "all horizons from 1 to 2^30, all min_periods, all streams of fewer than 2^31 values (any length for powers of two), all output cotangents", "why_tests_cant": "A test differentiates one short stream; the backward pass scatters through write positions that wrap around the buffer at every multiple of the horizon.", "anchors": ["src/wax/flax/modules/rolling_mean.py:RollingMean", "src/wax/flax/modules/buffer.py:Buffer", "src/wax/unroll.py:unroll"]}
{"id": "C201", "title": "Gradients through a stream of PctChange are derivatives", "statement": "What jax.grad returns through the unrolled PctChange (forward fill, lag, quotient) is the derivative of the weighted sum of the outputs, for every stream and all weights. It is so for an observed input that comes after an observed one and is followed by an observed one; but the gradient of the first input (and of those up to the first observed one) is always NaN, even if the loss gives weight 0 to the NaN outputs, and the gradient of a value followed by a missing one is always NaN, although the loss is differentiable there.", "quantifier": "all streams without infinities (missing values anywhere), all weights, both values of fillna_zero", "why_tests_cant": "A unit test differentiates one step at a time or compares values; the NaN comes from the first step of the scan, whose weight is 0 in any loss that skips it.", "anchors": ["src/wax/modules/pct_change.py:PctChange", "src/wax/modules/ffill.py:Ffill", "src/wax/modules/lag.py:Lag", "src/wax/unroll.py:unroll"]}
{"id": "C202", "title": "Gradients through UpdateOnEvent and ConditionalComputation are those of the module at the events", "statement": "For every module whose pullback sends zeros to zeros, jax.grad through the unrolled UpdateOnEvent(module) is jax.grad through the module fed with the inputs of the events only, each of its outputs having the sum of the weights of the steps during which it is held, and the inputs without event have gradient zero; through the Flax ConditionalComputation it is jax.grad through the module fed with all the inputs, with the same weights at the events and zero elsewhere. With RollingMean inside, the gradient is the derivative of the weighted sum of the outputs for every pattern of events and of missing values.", "quantifier": "all modules (machine and pullback), all streams of flags and inputs, all weights", "why_tests_cant": "Tests try one module and one pattern of events; a gradient can leak through the branch that was not taken or count a held output once instead of at every step.", "anchors": ["src/wax/modules/update_on_event.py:UpdateOnEvent", "src/wax/flax/core/streaming_transforms.py:ConditionalComputation", "src/wax/unroll.py:unroll"]}
{"id": "C203", "title": "Gradients through event-driven EWMA are true derivatives", "statement": "jax.grad through the unrolled UpdateOnEvent(EWMA) (Haiku) and ConditionalComputation(EWMA) (Flax), with adjust True or False, gives numbers, never NaN, and they are the derivatives of the loss with respect to the trainable parameter logcom and to every input, whatever the events and the missing values, also in the inputs that the wrapper ignores; for Flax, at streams where the events do not change under small moves of the inputs.", "quantifier": "every pattern of events, every stream of numbers and NaN, every weighting of the outputs, every logcom, ignore_na, min_periods, initial value and initial output, every direction", "why_tests_cant": "the pullback of the branch that hk.cond or jnp.where discards is executed with zero cotangents and poisons the gradient if it divides by zero there, which depends on the pattern of events and missing values", "anchors": ["src/wax/modules/update_on_event.py:UpdateOnEvent.__call__", "src/wax/flax/core/streaming_transforms.py:ConditionalComputation", "src/wax/modules/ewma.py:EWMA.__call__", "src/wax/unroll.py:dynamic_unroll"]}
{"id": "C204", "title": "Dates of every unit round-trip through the encoders", "statement": "Decoding an encoded datetime, datetime64 or array of datetime64 gives back the same instant, whatever its unit, and floor_datetime of it is the midnight before; NaT stays NaT.", "quantifier": "every int64 count of every time unit, every datetime.datetime, every array shape", "why_tests_cant": "the conversion to nanoseconds wraps only far from the epoch (before 1677, after 2262), which no test uses", "anchors": ["src/wax/encode.py:encode_datetime", "src/wax/encode.py:decode_datetime", "src/wax/encode.py:encode_datetime64", "src/wax/encode.py:datetime64_encoder", "src/wax/encode.py:floor_datetime"]}
{"id": "C205", "title": "Gradients through modules called one after the other", "statement": "Differentiating an unrolled function that calls two modules in a row is the backward pass of the second module on the outputs of the first, followed by the backward pass of the first one on the cotangents so obtained. For RollingMean of EWMA and for EWMA of RollingMean, jax.grad with respect to the EWMA's logcom and to the inputs is the derivative of every weighted sum of the outputs, whatever values are missing.", "quantifier": "every pair of modules (chain rule); every com, window, min_periods, every stream of numbers and missing values, every weighting of the outputs", "why_tests_cant": "the gradients flow back through two recurrent states whose missing-value masks interact; tests differentiate EWMA alone on one series", "anchors": ["src/wax/unroll.py:dynamic_unroll", "src/wax/modules/ewma.py:EWMA", "src/wax/modules/rolling_mean.py:RollingMean"]}
{"id": "C206", "title": "Gradients through Buffer, Lag, Diff and Ffill", "statement": "Differentiating unrolled Buffer, Lag, Diff or Ffill gives each input the weights of the outputs that show it: its places in the next windows (Buffer), the output k steps later (Lag), its own step minus the next one (Diff), the outputs that repeat it until the next value (Ffill); this is the derivative of the weighted sum of the outputs, and the Flax circular buffers give the same gradients as the Haiku ones.", "quantifier": "every buffer length, lag and fill value, every stream with missing values, every weighting of the outputs, every step", "why_tests_cant": "the backward pass runs through shifted or circular buffers over the whole history; tests only check forward values", "anchors": ["src/wax/modules/buffer.py:Buffer", "src/wax/modules/lag.py:Lag", "src/wax/modules/diff.py:Diff", "src/wax/modules/ffill.py:Ffill", "src/wax/flax/modules/buffer.py:Buffer", "src/wax/flax/modules/lag.py:Lag", "src/wax/flax/modules/diff.py:Diff", "src/wax/flax/modules/ffill.py:Ffill"]}
{"id": "C207", "title": "Gradients through pipelines of modules", "statement": "When the gradients through two modules are right along every path of the inputs and in their parameters, so are the gradients through the unrolled function that calls one after the other, in the inputs and in the parameters of both, and so for pipelines of any length; EWMA (Haiku and Flax, in logcom), RollingMean, Lag, Diff and Ffill are such modules, so jax.grad through e.g. EWMA of EWMA or Ffill, Diff, RollingMean, EWMA gives the derivative of every weighted sum of the outputs that are not missing.", "quantifier": "all pipelines, all parameters, every stream of numbers and missing values, every weighting of the observed outputs, every direction", "why_tests_cant": "pipelines compose without bound and the derivative is along every direction of an unbounded history; tests differentiate no pipeline", "anchors": ["src/wax/unroll.py:dynamic_unroll", "src/wax/modules/ewma.py:EWMA", "src/wax/flax/modules/ewma.py:EWMA", "src/wax/modules/rolling_mean.py:RollingMean", "src/wax/modules/lag.py:Lag", "src/wax/modules/diff.py:Diff", "src/wax/modules/ffill.py:Ffill"]}
{"id": "C208", "title": "Gradients through events around pipelines", "statement": "When the gradients through a module or a pipeline of modules are right, so are the gradients through UpdateOnEvent of it, for every pattern of events and every initial output, and through the Flax ConditionalComputation of it, for every event that does not change along small moves of the inputs: in the parameters and in the inputs, along every direction.", "quantifier": "all modules whose calls without contribution have no gradient (EWMA, RollingMean, Lag, Diff, Ffill and their pipelines), every pattern of events, every stream of numbers and missing values, every weighting of the observed outputs", "why_tests_cant": "events, held outputs and the wrapped pipeline interact over unbounded histories; tests never differentiate the wrappers", "anchors": ["src/wax/modules/update_on_event.py:UpdateOnEvent", "src/wax/flax/core/streaming_transforms.py:ConditionalComputation", "src/wax/unroll.py:dynamic_unroll"]}
{"id": "C209", "title": "The EWMA parameter stays trainable in a pipeline with PctChange", "statement": "When the outputs of PctChange applied to the outputs of an EWMA are numbers, the gradient of a loss on them with respect to the EWMA parameter is a number. (False of the code: with adjust=False it is NaN on every stream, because the NaN cotangent of the first output of the EWMA reaches the parameter; with any adjust, one NaN cotangent at an observed value that follows a number is enough.)", "quantifier": "all configurations of EWMA with adjust=False, all streams with enough observed values, all weightings of the outputs, both values of fillna_zero; any adjust and Haiku or Flax for the spread of one NaN", "why_tests_cant": "the NaN comes from a step with weight zero and is carried through an unbounded history; tests look at forward values only", "anchors": ["src/wax/modules/ewma.py:EWMA.__call__", "src/wax/flax/modules/ewma.py:EWMA.__call__", "src/wax/modules/pct_change.py:PctChange", "src/wax/unroll.py:dynamic_unroll"]}
{"id": "C210", "title": "Gradients through pipelines of Flax modules", "statement": "jax.grad through any unrolled sequence of the Flax modules Lag, Diff, RollingMean, Ffill and EWMA (adjust True or False) gives the derivative of the weighted sum of the outputs that are not missing, in the EWMA parameters and in the inputs, along every direction, on every stream of fewer than 2^31 steps.", "quantifier": "all streams of numbers and missing values of fewer than 2^31 steps, all window sizes up to 2^30, all pipelines of these modules, all weightings of the observed outputs, all directions", "why_tests_cant": "the circular buffer rotates what each input is worth at every step, over histories of any length; tests never differentiate a pipeline", "anchors": ["src/wax/flax/modules/buffer.py:Buffer.__call__", "src/wax/flax/modules/lag.py:Lag", "src/wax/flax/modules/diff.py:Diff", "src/wax/flax/modules/rolling_mean.py:RollingMean", "src/wax/flax/modules/ewma.py:EWMA", "src/wax/unroll.py:dynamic_unroll"]}
{"id": "C211", "title": "What the online optimisers do with a parameter whose gradient is NaN", "statement": "With FuncOptimizer(grads_fill_nan_inf=True) a trainable parameter whose gradient is NaN or infinite at every call keeps its initial value in the parameters returned at every call (the same for a NaN gradient in the parameters kept by OnlineOptimizer without projection), for every optimiser that leaves alone a parameter with zero gradients (SGD with momentum is one): there is no error and no training of it, while the other parameters are trained. With grads_fill_nan_inf=False and an optimiser that passes NaN on, one NaN gradient at the first call makes the parameter NaN at every call. So a FuncOptimizer on the returns (PctChange) of a series smoothed by EWMA(adjust=False) never trains the logcom of the EWMA. The same holds for the logcom of an EWMVar (adjust True or False) on a series with a missing value in every call, and for the parameter of the means of x in an EWMCov(adjust=False) when a component of y starts after a component of x.", "quantifier": "All functions, parameters, optimisers of the stated kind, states, numbers of calls and values of the inputs", "why_tests_cant": "The effect is the absence of a change at every call, for every optimiser and every sequence of inputs; a test sees a few calls, and a test of the loss of one example passes with a parameter that is not trained.", "anchors": ["src/wax/modules/func_optimizer.py:FuncOptimizer.__call__", "src/wax/modules/online_optimizer.py:OnlineOptimizer.__call__", "src/wax/modules/fill_nan_inf.py:FillNanInf", "src/wax/modules/ewma.py:EWMA", "src/wax/modules/pct_change.py:PctChange", "src/wax/modules/ewmvar.py:EWMVar", "src/wax/modules/ewmcov.py:EWMCov"]}
{"id": "C212", "title": "What the Flax optimisers do with a parameter whose gradient is NaN", "statement": "The Flax FuncOptimizer on a Flax module evaluates the module at every call on parameters in which a trainable parameter whose gradient is NaN or infinite at every call has its initial value (from the module's init on the first input), and reports the gradient 0 for it, whatever happens to the other parameters; the Flax OnlineOptimizer (no projection, every parameter trainable, keys without '/') returns at every call parameters in which a parameter whose gradient is NaN at every call has its initial value, and the gradient 0 for it. For every optimiser that leaves a leaf with zero gradients alone (SGD is one). So neither gives a sign, in parameters or gradients, that the parameter is not trained because of NaN.", "quantifier": "All modules, parameters, predicates (FuncOptimizer), optimisers of the stated kind, inputs and numbers of calls", "why_tests_cant": "The claim is about all calls and all optimisers, and what fails in practice is silent: the reported gradients are ordinary zeros.", "anchors": ["src/wax/flax/modules/func_optimizer.py:FuncOptimizer.__call__", "src/wax/flax/modules/online_optimizer.py:OnlineOptimizer.__call__", "src/wax/flax/modules/fill_nan_inf.py:FillNanInf"]}
{"id": "C213", "title": "What the four online optimisers do with an infinite gradient under gradient descent", "statement": "With optax.sgd(lr), one call of an online optimiser moves a trainable parameter p with gradient g: to p - lr*g if g is a number; not at all if g is NaN; and if g is plus or minus infinity, Haiku and Flax OnlineOptimizer move it by lr times the largest float against the sign of g, while Haiku FuncOptimizer(grads_fill_nan_inf=True) and Flax FuncOptimizer do not move it. With grads_fill_nan_inf=False the parameter becomes p - lr*g in float arithmetic, so NaN or infinite. FuncOptimizer returns this new value at that call. So the optimisers are not interchangeable on a loss with infinite gradients.", "quantifier": "All histories of calls (Haiku) or states (Flax), parameters, gradients (numbers, NaN, infinities), learning rates and other parameters", "why_tests_cant": "The claim covers every kind of gradient at every call of every history; tests use finite gradients.", "anchors": ["src/wax/modules/online_optimizer.py:OnlineOptimizer.__call__", "src/wax/modules/func_optimizer.py:FuncOptimizer.__call__", "src/wax/flax/modules/online_optimizer.py:OnlineOptimizer.__call__", "src/wax/flax/modules/func_optimizer.py:FuncOptimizer.__call__", "src/wax/modules/fill_nan_inf.py:FillNanInf"]}
