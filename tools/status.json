{
"C01": [
"proved",
"window contents, len_buffer, i_start for every history"
],
"C02": [
"proved",
"fewer than 2^31 writes for every maxlen<=2^30; all streams for powers of two; for every other maxlen a stream of length 2^31 on which the two differ (C02_flax_buffer_wrap_breaks)"
],
"C03": [
"proved",
"positions, identity, Flax agreement below 2^31 steps; return_state defect of Haiku Lag recorded"
],
"C04": [
"proved",
""
],
"C05": [
"proved",
"fill_method in {ffill,pad}; the other branch of the Haiku module raises TypeError"
],
"C06": [
"proved",
""
],
"C07": [
"proved",
""
],
"C08": [
"proved",
""
],
"C09": [
"proved",
""
],
"C10": [
"proved",
""
],
"C11": [
"proved",
""
],
"C12": [
"proved",
"NaN at an unmasked position counts as 0 (as in the code)"
],
"C13": [
"proved",
"axis=1 defect recorded (C13_mask_std_axis1_wrong)"
],
"C14": [
"proved",
""
],
"C15": [
"partial",
"agreement with Haiku is false in general; proved: the exact Flax bar at every step of every stream (C15_flax_ohlc_bar_partial) and that it agrees with Haiku exactly when no NaN arrives inside a bar that already has a price (C15_agrees_iff_partial)"
],
"C16": [
"proved",
""
],
"C17": [
"proved",
""
],
"C18": [
"proved",
""
],
"C19": [
"proved",
""
],
"C20": [
"partial",
"proved for streams (and initial value) without infinities; false with an infinity, witness given"
],
"C21": [
"partial",
"resume proved; the no-mutation half is false of the code (the state arrays are updated in place), witness given"
],
"C22": [
"proved",
"streams without infinities"
],
"C23": [
"proved",
"symmetry on every stream; PSD on finite streams with NaN initial value (counterexample otherwise recorded)"
],
"C24": [
"proved",
"streams of any floats; finite recurrence with explicit coefficient order"
],
"C25": [
"partial",
"documented recurrence is false of the code (C25_flax_arma_ar1_is_identity, C25_flax_arma_differs); the recurrence the code satisfies is proved"
],
"C26": [
"partial",
"the no-look-ahead claim is false for p>=1 (witness theorems); features, p=0 case and order rejection proved"
],
"C27": [
"proved",
""
],
"C28": [
"partial",
"false across zero/1970 (C28_less_mixed_sign_wrong: always the opposite answer); same-sign case and strict total order proved"
],
"C29": [
"proved",
"all int64 times from the first representable midnight; below it (less than one day, NaT included) the product wraps: C29_floor_wraps"
],
"C30": [
"proved",
""
],
"C31": [
"proved",
"embedded local clock non-decreasing (needed: C31_needs_ordered_clock)"
],
"C32": [
"proved",
""
],
"C33": [
"proved",
""
],
"C34": [
"proved",
""
],
"C35": [
"partial",
"false of the code until the buffer is full: the first observation is recorded twice (witness); exact contents and full-buffer case proved"
],
"C36": [
"partial",
"proved for every stream variable with one value per time; false for array variables without time dimension (exact entries read and exactly the steps that are right) and for buffered variables with a feature axis (exactly when it raises, exact entries otherwise)"
],
"C60": [
"partial",
"skip_first=False proved; skip_first=True is false with two leaves: exact result and 'correct iff one leaf' proved"
],
"C37": [
"proved",
"unroll = step by step, resumable, causal; lifted unroll over chunks"
],
"C38": [
"proved",
"Python loop = lax.scan on every non-empty sequence; behaviour on empty characterised"
],
"C39": [
"proved",
"key chain of unroll characterised; fori version uses one key, difference exhibited"
],
"C40": [
"partial",
"false as stated (first element consumed twice by init): exact behaviour proved, with skip_first and with given state; counterexample kept"
],
"C41": [
"partial",
"false as stated (first output lost): exact behaviour proved, always one output too few"
],
"C42": [
"proved",
""
],
"C61": [
"partial",
"holds for the static version; the lax.scan version ignores the key (proved), agreement when the init key is reused"
],
"C43": [
"proved",
"inner deterministic module; float fill value fits the output dtype"
],
"C44": [
"proved",
""
],
"C45": [
"proved",
"for a given state; default state has already seen the first element (witness), giving a key without a state raises"
],
"C46": [
"proved",
"modules run outside jit; reported states, module inputs and outputs characterised for every history; an instance created in the setup of an enclosing module (the only use that works, C148)"
],
"C62": [
"proved",
"an instance created in the setup of an enclosing module (the only use that works, C148)"
],
"C63": [
"proved",
"an instance created in the setup of an enclosing module, or an unattached one on callables without variables (C148)"
],
"C64": [
"proved",
""
],
"C47": [
"proved",
"any iteration order of sets; cyclic case gives a permutation only (witness)"
],
"C48": [
"proved",
"also: get_relevant_states(top_k) returns the oldest entries"
],
"C65": [
"proved",
""
],
"C66": [
"proved",
""
],
"C67": [
"proved",
"exact arithmetic"
],
"C68": [
"proved",
"strategy hierarchical modelled, no theorem on its data flow"
],
"C49": [
"proved",
"Exact storage and output; finding: at steps that do not record the output is a rotation (physical order) of the window."
],
"C50": [
"proved",
"Cells are exact counts up to the float32 limit 2^24; witness that the vector returned by the module is not a frequency estimate."
],
"C69": [
"proved",
"Exact real arithmetic; the fill value counts as data (witness)."
],
"C70": [
"partial",
"False for downsample with factor > maxlen (the report says 0 bytes, 1 entry is stored) and for sketching levels of the hierarchical buffer: exact iff proved for both; totals proved."
],
"C71": [
"proved",
"Non-ewma medium/long levels output 0 between updates: stated exactly (C71_level_not_kept)."
],
"C51": [
"proved",
"Exact field arithmetic (no float32 rounding), constant learning rate, one flattened leaf (leaves are independent: block-diagonal)."
],
"C52": [
"partial",
"Haiku: full. Flax: false in general (shallow merge); exact iff and counterexamples proved."
],
"C53": [
"proved",
"Leaves are numbers; gradients are an arbitrary function. (see C148, C149 for the configurations that are refused)"
],
"C72": [
"proved",
"Autodiff abstracted to an arbitrary gradient function."
],
"C73": [
"proved",
"Haiku learner. (functions with Haiku state are refused, C149)"
],
"C74": [
"partial",
"The expected property is false; proved: the model state is frozen at its initial value, with a counterexample. (the model is one whose call is accepted: C150 shows that a Flax module writing its state raises)"
],
"C75": [
"partial",
"The expected property is false; proved: predictions are those of the untrained model on every stream."
],
"C54": [
"proved",
"exceptions raised by user code inside the loop are not modelled; the callback set is a list (any order)"
],
"C55": [
"proved",
""
],
"C56": [
"proved",
""
],
"C57": [
"partial",
"restoration is proved when no scope re-enters an already active callback; re-entry is a counterexample (C57_reentry_witness)"
],
"C76": [
"proved",
"outputs as recorded values, tree flattening of records not modelled"
],
"C77": [
"proved",
""
],
"C78": [
"partial",
"the property is false of the code; the exact (memoryless) behaviour is proved"
],
"C58": [
"proved",
"interactive breakpoints are always continued; conditions of different hooks share no state; performance-monitor hooks (which read the debugger's own data) are not modelled"
],
"C59": [
"proved",
"memory readings are inputs"
],
"C79": [
"proved",
"scalar values of an ordered field (no NaN)"
],
"C80": [
"proved",
""
],
"C81": [
"partial",
"the property is false of the code; the exact behaviour is proved"
],
"C82": [
"partial",
"soundness and detection proved; the reported rate is not MB per step (C82_rate_witness)"
],
"C83": [
"proved",
"leaf sizes are byte counts; the exception fallback is not modelled"
],
"C84": [
"proved",
"Haiku: any predicate; Flax OnlineOptimizer: all parameters trainable and keys without slash (mixing loses leaves, see C52); Flax FuncOptimizer: any predicate with at least one trainable leaf (the Flax optimisers need an explicit predicate, C148; Haiku FuncOptimizer a function without state, C149)"
],
"C85": [
"proved",
"end-to-end pipeline model: merge, encode, access, unroll; WellFormed example given"
],
"C86": [
"proved",
"for all datasets, modules and configurations; C86_boundary shows exactness"
],
"C87": [
"proved",
"full statement for all structures/frames; pitfalls are separate theorems"
],
"C88": [
"proved",
"full statement for all structures/frames; pitfalls are separate theorems"
],
"C89": [
"proved",
"full statement for all structures/frames; pitfalls are separate theorems"
],
"C90": [
"proved",
"full statement for all structures/frames; pitfalls are separate theorems"
],
"C91": [
"proved",
"gradients: any function in C91_replay, Mathlib's deriv over the reals for SGD convergence"
],
"C92": [
"partial",
"the property is false of the code; exact behaviour and witness proved"
],
"C93": [
"partial",
"false with parameters (C93_params_lost, witness); proved without parameters and for merged variables"
],
"C94": [
"partial",
"the property is false of the code; exact behaviour proved"
],
"C95": [
"proved",
""
],
"C96": [
"partial",
"the property is false of the code; exact result of the wrappers' bodies proved; in the pinned version the wrappers raise before (C148_decorators_raise_partial)"
],
"C97": [
"proved",
"exact arithmetic; non-empty batches"
],
"C98": [
"proved",
""
],
"C99": [
"proved",
""
],
"C100": [
"proved",
""
],
"C102": [
"proved",
""
],
"C103": [
"proved",
""
],
"C104": [
"proved",
""
],
"C107": [
"proved",
""
],
"C101": [
"partial",
"label proved; the smoothing adapts only on the first call (C101_regime_has_no_effect); C101_regime_signal_partial gives the exact signal"
],
"C105": [
"partial",
"exact condition proved; the shipped examples violate it (C105_high_price_signal_raises)"
],
"C106": [
"partial",
"false when calls reorder the assets (C106_portfolio_not_by_name); proved for a fixed order"
],
"C108": [
"partial",
"false (C108_returns_not_cumulative, C108_returns_not_cumulative_sum); exact values in C108_returns_value_partial"
],
"C109": [
"proved",
"includes the behaviour on columns that come and go (NaN for ever)"
],
"C110": [
"proved",
"state names without slash; C110_slash_in_state_name shows the assumption is needed"
],
"C111": [
"partial",
"false of the code: the given callbacks replace the active ones and objects raise; exact behaviour in the _partial theorem"
],
"C112": [
"partial",
"first use counts every step; reuse shown not to count (closed tqdm bar ignores updates)"
],
"C113": [
"proved",
""
],
"C114": [
"proved",
"one-dimensional arrays"
],
"C115": [
"proved",
""
],
"C116": [
"proved",
""
],
"C117": [
"proved",
""
],
"C118": [
"proved",
""
],
"C119": [
"proved",
""
],
"C120": [
"proved",
"statistics against independent specifications (sorted permutation for the median, membership and bounds for max/min)"
],
"C121": [
"proved",
"exact list of recommendations; findings about constant durations, resident memory and numpy inputs proved"
],
"C122": [
"proved",
"simulation between the reset and the new profiler"
],
"C123": [
"proved",
"summary of the retained snapshots of the requests in force"
],
"C124": [
"partial",
"summary, export and value_threshold proved; the monitor is exact only when every step is timed (C124_monitor_timed_partial); C124_monitor gives its exact behaviour and C124_monitor_stale_witness the failure"
],
"C125": [
"partial",
"false of the code (witnesses); exact conditions for isolation proved: no numpy array for the history, no mutable entry for hook events"
],
"C126": [
"partial",
"false of the code (C126_result_changes_witness); proved when no slow recording and no reset follows, and for results made before the first bottleneck"
],
"C127": [
"proved",
"session invariant"
],
"C128": [
"partial",
"false of the code: the flags are ignored (C128_flags_ignored, C128_flag_false)"
],
"C129": [
"partial",
"false for n = 0 (C129_zero_returns_all); proved for n >= 1"
],
"C130": [
"partial",
"false: last step never shown, exceptions lose data; proved: frame contents, growth, restoration when nothing raises"
],
"C131": [
"partial",
"false for the run with the last point; exact characterisation proved"
],
"C132": [
"proved",
"session invariant; broadcast to browsers not modelled"
],
"C133": [
"partial",
"false for Bokeh with max_points = 0 (C133_zero_unbounded); proved for max_points >= 1 and for Jupyter"
],
"C134": [
"partial",
"false for names containing ' Data' (C134_stage_lost); proved for all others"
],
"C135": [
"proved",
"All parameter trees with Flax names. The oracle strHas stands for the search in str(params)."
],
"C136": [
"partial",
"False of the code (C136_no_edges: there is never an edge). Proved: edges join nodes."
],
"C137": [
"proved",
"Existence (termination) in C137_levels, and the same facts for any run that returned in C137_result."
],
"C138": [
"partial",
"False of the code (C138_nesting_is_spurious, with an example that nests). Proved: flat when no Module name begins another identifier."
],
"C139": [
"partial",
"Graphviz part fully proved; false for Cytoscape identifiers (C139_cytoscape_ids_clash), proved without underscores."
],
"C140": [
"proved",
""
],
"C141": [
"proved",
"With the hypothesis on names; C141_name_clash shows it is needed."
],
"C142": [
"proved",
"strHas is the search in str(params)"
],
"C143": [
"proved",
"any rank, any axis, refusals included"
],
"C144": [
"partial",
"false of the code for axis=1 (C144_axis1_wrong); exact behaviour for every rank and axis: C144_mask_std_axis_exact; correct cases: _none, _centered, _axis_partial"
],
"C145": [
"partial",
"false of the code (C145_axis1_wrong); exact for axis=1: C145_axis1_exact; correct cases: _none, _axis_partial"
],
"C146": [
"partial",
"false of the code (C146_mismatch_accepted, C146_mean_column_mask_raises, C146_std_rank3_refused); agreement proved on masks of the data's shape and on per-row / per-column masks in ApplyMask"
],
"C147": [
"partial",
"false of the code (C147_flax_axis1_wrong); exact for axis=1, correct for axis 0 of any rank and None"
],
"C148": [
"partial",
"the general property is false of the code; exact outcome proved for every class concerned, under the trusted flax lifecycle rules"
],
"C149": [
"partial",
"the property is false of the code; exact outcome proved"
],
"C150": [
"partial",
"the property is false of the code; exact outcome proved"
],
"C151": [
"partial",
"the property is false of the code; exact outcome proved"
],
"C152": [
"proved",
""
],
"C153": [
"partial",
"the property is false of the code; exact behaviour proved"
],
"C154": [
"proved",
"key sequence of Haiku (next_rng_key / maybe_next_rng_key, hk.scan threading keys) is trusted"
],
"C155": [
"proved",
"strip().lower() is a parameter; removes the assumption of C58 that breakpoints are continued"
],
"C156": [
"proved",
""
],
"C157": [
"partial",
"false of the code: exactly the stacks whose innermost decorator has a module name can be built, and scan is always lost"
],
"C158": [
"proved",
"round trip through an independent reader of DOT statements"
],
"C159": [
"partial",
"false of the code: exact characterisation of the example inputs for which the exported statement is read back"
],
"C160": [
"proved",
""
],
"C161": [
"proved",
""
],
"C162": [
"proved",
""
],
"C164": [
"proved",
""
],
"C165": [
"proved",
""
],
"C166": [
"proved",
""
],
"C163": [
"partial",
"false of the code: both panels plot random numbers whatever was recorded; exact contents proved"
],
"C167": [
"proved",
"objects with their key sequences, resets and exceptions; keys are an arbitrary sequence"
],
"C168": [
"partial",
"false of the code: _setup_jit_tracking installs nothing and profile_streaming never marks its steps, so compilations are never counted unless the program marks a start_step block itself"
],
"C169": [
"partial",
"true of start_step blocks; false of profile_streaming, which records a returning call twice (average halved, minimum 0)"
],
"C170": [
"proved",
"from the specifications of the modules, or by simulation"
],
"C171": [
"proved",
"from the specifications of the modules"
],
"C172": [
"partial",
"False of the code: names that look like tags (<lambda>) are not shown (C172_tag_names_hidden); true for names without '<'."
],
"C173": [
"proved",
"Lines of the text and parameters shown."
],
"C174": [
"partial",
"False of the code: the analyser returns its own dictionary, overwritten by its next analysis (C174_result_overwritten, C174_summary_overwritten); holds across different analysers."
],
"C175": [
"partial",
"False of the code: subscriptions have no effect, everything is broadcast (C175_subscriptions_ignored); the deliveries to connected browsers are characterised exactly."
],
"C176": [
"partial",
"False of the code when a thread switches the object off and resets it: the flag is read outside the lock (C176_reset_after_disable). Proved for all schedules when the threads do not both reset and switch off."
],
"C177": [
"partial",
"False of the code with concurrent calls: the leaks are read outside the lock (C177_report_race). Proved while nothing else runs."
],
"C178": [
"proved",
""
],
"C179": [
"proved",
""
],
"C181": [
"proved",
""
],
"C180": [
"partial",
"proved for numba (every rounding); false of the Haiku module in float32 (witness)"
],
"C182": [
"proved",
""
],
"C183": [
"partial",
"false of the code: float32 witnesses; C182 bounds how negative it can be"
],
"C184": [
"proved",
"coupling invariant of computed and exact mean and variance; relative error 16u(1+com) of the computed smoothing factor"
],
"C185": [
"proved",
"Haiku and Flax, adjust True and False; adjust='linear' is C186. The loss weighs the outputs that are numbers; missing outputs count for nothing."
],
"C186": [
"partial",
"complete data: numbers (Haiku, Flax); a gap can give NaN, so the property is false of the code"
],
"C187": [
"partial",
"complete data: true derivatives (adjust True/False); any missing value: NaN for logcom, so the property is false of the code"
],
"C188": [
"partial",
"numbers: true derivatives; missing current value: NaN for the previous one, so the property is false of the code"
],
"C189": [
"partial",
"MaskStd: numbers always, derivative where the variance is positive; MaskNormalize: numbers when the standard deviation is not 0, NaN when it is, so the property is false of the code"
],
"C190": [
"proved",
"rounded numba kernel follows the exact EWMA (coupling invariant) and hence the rounded Haiku module"
],
"C191": [
"proved",
"Haiku MaskMean on one line, any summation order"
],
"C192": [
"proved",
"Haiku MaskStd on one line, any summation order and accurate square root"
],
"C193": [
"partial",
"false of the code in float32: C193_constant_explodes_partial; proved in exact arithmetic"
],
"C194": [
"proved",
"Haiku, and Flax with pad"
],
"C195": [
"partial",
"False of the code beyond 2^31 observations (C195_goes_silent_partial, C195_constant_stream_partial); exact behaviour on all streams in C195_exact, agreement with the ideal counter in C195_short, C195_no_min_periods and C195_numba"
],
"C196": [
"proved",
"float32, every adjust mode, streams of any length; C196_stopped_counter is the general form, C196_short needs nothing of the smoothing"
],
"C197": [
"proved",
"any module, parameters, state and stream; the folding of the scope name into random keys is a parameter"
],
"C198": [
"proved",
""
],
"C199": [
"partial",
"False of the code with missing values (two negative theorems); proved on complete data for Haiku and Flax."
],
"C200": [
"proved",
"gradient of the Flax RollingMean = gradient of the Haiku one (fewer than 2^31 steps, or power-of-two horizon) = derivative of the outputs"
],
"C201": [
"partial",
"false of the code: NaN gradient for the first observed input and for every value followed by a missing one (C201_first_input_nan_partial, C201_before_missing_nan_partial), although the loss is differentiable (C201_loss_differentiable); the derivative everywhere else (C201_true_derivative_partial)"
],
"C202": [
"proved",
"generic over the module; hypothesis on UpdateOnEvent: the module's pullback of zero cotangents is zero (true of RollingMean, proved; false of PctChange at its first step, see C201)"
],
"C203": [
"proved",
"the wrapped module is EWMA with adjust True or False (with adjust='linear' the module alone has NaN gradients at gaps, C186)"
],
"C204": [
"partial",
"false of the code for dates out of the int64 nanosecond range, silently replaced by others; proved: round-trip exactly in range (iff), NaT, flooring, arrays and their shape errors"
],
"C205": [
"proved",
"Chain rule for any two modules; RollingMean of EWMA and EWMA of RollingMean against the derivative over the reals"
],
"C206": [
"proved",
"Exact gradients of any buffer readout, Lag, Diff, Ffill (Haiku and Flax); true derivatives. For Diff: outputs that are not numbers have weight 0"
],
"C207": [
"proved",
"TrueGradient closed under composition; EWMA (Haiku, Flax), RollingMean, Lag, Diff, Ffill; pipelines of two and four modules"
],
"C208": [
"proved",
"TrueGradient transfers through UpdateOnEvent and ConditionalComputation, pipelines included"
],
"C209": [
"partial",
"False of the code as stated: proved that with adjust=False the gradient of logcom through PctChange of EWMA is NaN on every stream, and when one NaN cotangent spreads."
],
"C210": [
"proved",
"TrueGradientOn lengths below 2^31; pipelines; the derivative."
],
"C211": [
"proved",
"The optimiser is any transformation that is Quiet at the parameter (momentum shown to be one). C211_func_frozen, C211_online_frozen, C211_func_poisoned, C211_smoothed_returns_never_trained."
],
"C212": [
"proved",
"Any optimiser FlaxQuiet at the leaf (SGD shown to be one)."
],
"C213": [
"proved",
"Exact arithmetic; the largest float is the constant big."
]
}