{"id": "C01", "title": "Drift plane cell is the average along its rounded line", "statement": "integrate_drifts on a CPU coarse channel returns, for every drift and every starting channel, (1/T) times the sum over time steps t and desmear bins k of the spectrum at channel c+round(m*t)+k (c+round(m*t)-k for negative drifts) divided by the desmear width, counting exactly the samples of that path that the edge rules keep; no other sample contributes and no sample contributes twice.", "quantifier": "every spectrum, every number of time steps and channels, every list of drift rates (any slopes, spans and desmear widths) that stays within the band", "why_tests_cant": "the index arithmetic has separate branches per sign, desmear and edge; a test only samples a few grids while the claim is for every grid size, slope and edge position", "anchors": ["bliss/drift_search/kernels/drift_integration_cpu.cpp: integrate_linear_rounded_bins_cpu"]}
{"id": "C02", "title": "Drift integration stays inside its buffers", "statement": "For every drift rate whose span and desmear width fit in the number of channels, integration reads and writes only inside the spectrum, mask, plane and counter buffers; a drift rate that does not fit must not cause an out-of-bounds access.", "quantifier": "every grid size, drift rate and desmear width", "why_tests_cant": "memory safety must hold for all index combinations; the unsafe ones are outside the tested parameter range", "anchors": ["bliss/drift_search/kernels/drift_integration_cpu.cpp: integrate_linear_rounded_bins_cpu"]}
{"id": "C03", "title": "CPU and generic integrators agree", "statement": "The CPU integrator and the generic (array-expression) integrator return identical drift planes and identical RFI counters, bit for bit, whenever the drift rates fit in the band.", "quantifier": "every spectrum, mask and drift list", "why_tests_cant": "equality of two algorithms over all inputs cannot be sampled", "anchors": ["bliss/drift_search/kernels/drift_integration_cpu.cpp: integrate_linear_rounded_bins_cpu", "bliss/drift_search/kernels/drift_integration_bland.cpp: integrate_linear_rounded_bins_bland"]}
{"id": "C04", "title": "Integrated RFI counters count flagged samples", "statement": "After integration the low-kurtosis, high-kurtosis and filter-rolloff counters of a drift-plane cell equal the number of samples on that cell's path whose mask has the corresponding flag; in particular a path with a flagged sample has a nonzero counter.", "quantifier": "every mask and every drift list, any number of time steps", "why_tests_cant": "wrap-around of the 8-bit counters needs 256 flagged samples on one path", "anchors": ["bliss/drift_search/kernels/drift_integration_cpu.cpp: integrate_linear_rounded_bins_cpu", "bliss/core/include/core/integrate_drifts_options.hpp: integrated_flags"]}
{"id": "C05", "title": "Drift list covers the requested range", "statement": "compute_drifts returns the drifts low, low+step, low+2*step, ... that are below high, in increasing order, each recorded with its own position in the plane and its channel span.", "quantifier": "every low/high/step option and number of time steps", "why_tests_cant": "integer division truncation depends on divisibility of the range by the step; all triples matter", "anchors": ["bliss/drift_search/integrate_drifts.cpp: compute_drifts, integrate_drifts"]}
{"id": "C06", "title": "Drift path geometry", "statement": "The channel offset used at time t for a drift of d channels starts at 0, ends at exactly d at the last time step, is monotone in t, never leaves the interval between 0 and d and stays within half a channel (plus float32 rounding of the slope) of the straight line.", "quantifier": "every d and T in the range where float32 represents them, every t", "why_tests_cant": "the slope is rounded to float32 and the product to double before rounding to an integer, so exact endpoints are a claim about all rounded quotients", "anchors": ["bliss/drift_search/integrate_drifts.cpp: compute_drifts, integrate_drifts", "bliss/drift_search/kernels/drift_integration_cpu.cpp: integrate_linear_rounded_bins_cpu"]}
{"id": "C07", "title": "Single-spectrum scans are handled", "statement": "integrate_drifts has defined behaviour for every coarse channel with at least one time step.", "quantifier": "all drift options and numbers of time steps", "why_tests_cant": "the failing case is division by zero producing NaN/Inf and an undefined float-to-int conversion that may appear to work in a test", "anchors": ["bliss/drift_search/integrate_drifts.cpp: compute_drifts, integrate_drifts", "bliss/drift_search/kernels/drift_integration_cpu.cpp: integrate_linear_rounded_bins_cpu"]}
{"id": "C08", "title": "Integration preserves levels", "statement": "In exact arithmetic every drift-plane cell whose whole path lies in the band lies between the minimum and maximum of the samples on its path, a constant spectrum gives that constant, and every cell of a non-negative spectrum is non-negative.", "quantifier": "every spectrum and drift list", "why_tests_cant": "a statement about all real-valued inputs", "anchors": ["bliss/drift_search/kernels/drift_integration_cpu.cpp: integrate_linear_rounded_bins_cpu"]}
{"id": "C09", "title": "Frequency reflection symmetry of integration", "statement": "Mirroring the spectrum in frequency and negating the drift mirrors the drift plane.", "quantifier": "every spectrum, drift and channel", "why_tests_cant": "edge handling differs between the positive and the negative branch; whether they agree is a claim about all cells", "anchors": ["bliss/drift_search/kernels/drift_integration_cpu.cpp: integrate_linear_rounded_bins_cpu"]}
{"id": "C10", "title": "Binary-mask components partition the mask", "statement": "find_components_in_binary_mask returns components whose locations are exactly the nonzero cells of the mask: every nonzero cell is in exactly one component, exactly once, and no zero or out-of-grid cell is in any; the search terminates and leaves the caller's mask unchanged.", "quantifier": "every mask, grid size and neighbourhood list", "why_tests_cant": "a property of all masks and all graph shapes, including termination of the queue loop", "anchors": ["bliss/drift_search/kernels/connected_components_cpu.cpp: find_components_in_binary_mask_cpu"]}
{"id": "C11", "title": "Binary-mask components are connected and maximal", "statement": "Each component is connected through neighbourhood steps inside it, and for a symmetric neighbourhood two neighbouring nonzero cells are always in the same component (so components are exactly the connected components).", "quantifier": "every mask and every neighbourhood", "why_tests_cant": "reachability in arbitrary graphs", "anchors": ["bliss/drift_search/kernels/connected_components_cpu.cpp: find_components_in_binary_mask_cpu"]}
{"id": "C12", "title": "Threshold components are disjoint and complete", "statement": "find_components_above_threshold puts every cell whose SNR exceeds the threshold in exactly one component, never puts a cell in two components or twice in one, and only includes cells with SNR above half the threshold.", "quantifier": "every plane, noise level, threshold and neighbour distance", "why_tests_cant": "a property of all planes", "anchors": ["bliss/drift_search/kernels/connected_components_cpu.cpp: find_components_above_threshold_cpu"]}
{"id": "C13", "title": "Reported peak is the strongest cell of its cluster", "statement": "The peak cell reported for a cluster belongs to the cluster, no cell of the cluster has a larger SNR, and the reported value, noise and SNR are those of that cell.", "quantifier": "every plane, including NaN samples", "why_tests_cant": "maximality over clusters of any size and shape", "anchors": ["bliss/drift_search/kernels/connected_components_cpu.cpp: find_components_above_threshold_cpu"]}
{"id": "C14", "title": "Cells within the neighbour distance are merged", "statement": "Two above-half-threshold cells whose L1 distance is at most neighbor_l1_dist are reported in the same cluster when one of them is in a cluster.", "quantifier": "every plane, threshold and distance", "why_tests_cant": "depends on an asymmetric half-open neighbourhood; holds or fails per geometry and scan order", "anchors": ["bliss/drift_search/kernels/connected_components_cpu.cpp: find_components_above_threshold_cpu"]}
{"id": "C15", "title": "Hit bandwidth and centre bracket the peak", "statement": "The reported centre channel and bin width describe the extent of the cluster at the peak's drift: the interval [lower, lower+binwidth] is inside the band, contains every cluster cell at that drift and the peak, its ends are cluster cells, and the centre lies in it.", "quantifier": "every cluster", "why_tests_cant": "for all shapes and scan orders of a cluster", "anchors": ["bliss/drift_search/kernels/connected_components_cpu.cpp: find_components_above_threshold_cpu"]}
{"id": "C16", "title": "RFI counts of a hit are those of its peak cell", "statement": "The rfi_counts attached to a cluster are the integrated RFI counters at the cluster's peak cell.", "quantifier": "every plane and every RFI counter grid", "why_tests_cant": "needs a cluster whose peak is not the first scanned cell", "anchors": ["bliss/drift_search/kernels/connected_components_cpu.cpp: find_components_above_threshold_cpu"]}
{"id": "C17", "title": "Local-maxima search finds interior strict maxima", "statement": "find_local_maxima_above_threshold returns every interior cell above the threshold that is strictly greater than all other cells within neighbor_l1_dist.", "quantifier": "every plane, threshold and neighbour distance", "why_tests_cant": "a property of all planes; absence of a result cannot be concluded from samples", "anchors": ["bliss/drift_search/kernels/local_maxima_cpu.cpp: find_local_maxima_above_threshold_cpu"]}
{"id": "C18", "title": "Hit search reports one hit per cluster with consistent physical values", "statement": "hit_search returns exactly one hit per protohit, in order, with rate_index and start_freq_index of the peak, start_freq_MHz equal to fch1+foff*centre channel, power equal to the peak minus the noise floor, snr equal to the SNR that the search compared with the threshold, bandwidth equal to binwidth times |foff| in Hz and the coarse channel number of the channel; hence every hit has snr above the threshold.", "quantifier": "every plane, noise estimate and option set", "why_tests_cant": "all planes and parameters", "anchors": ["bliss/drift_search/hit_search.cpp: hit_search", "bliss/drift_search/protohit_search.cpp: protohit_search"]}
{"id": "C19", "title": "filter_hits keeps exactly the acceptable hits in order", "statement": "filter_hits returns the sublist of hits, in the same order, whose rolloff and low-kurtosis counts are zero and (when zero-drift filtering is on) whose |drift| is at least 1e-6; it is idempotent and filtering a concatenation is the concatenation of the filtered lists.", "quantifier": "every list of hits and option set", "why_tests_cant": "all lists", "anchors": ["bliss/drift_search/filter_hits.cpp: filter_hits"]}
{"id": "C20", "title": "Hit comparison is a strict weak order consistent with equality", "statement": "operator< on hits is irreflexive, transitive, total on unequal hits (without NaN) and never true of equal hits.", "quantifier": "all triples of hits", "why_tests_cant": "transitivity is a claim on all triples over twelve fields", "anchors": ["bliss/core/include/core/hit.hpp: operator==, operator<"]}
{"id": "C21", "title": "Hit state round trip", "statement": "hit::set_state(hit::get_state()) restores the hit.", "quantifier": "every hit", "why_tests_cant": "loss depends on float narrowing and omitted fields for arbitrary values", "anchors": ["bliss/core/hit.cpp: get_state, set_state"]}
{"id": "C22", "title": "Events are built from distinct on-scans, at least two hits", "statement": "Every event returned by event_search has at least two hits, each taken from a different scan of the first target, in scan order.", "quantifier": "every cadence: any number of targets, scans and hits, any distances", "why_tests_cant": "all histories of the greedy matching", "anchors": ["bliss/drift_search/event_search.cpp: event_search"]}
{"id": "C23", "title": "A hit is matched into at most one event", "statement": "No hit of an on-scan is used in two events, and no hit is invented: every hit of every event is one of the hits of the on scans.", "quantifier": "every cadence", "why_tests_cant": "depends on erasure from lists during iteration for all lists", "anchors": ["bliss/drift_search/event_search.cpp: event_search"]}
{"id": "C24", "title": "Events are close in distance and absent from OFF scans", "statement": "Each added hit of an event is within distance 50 of an earlier hit of the event, is the closest available hit of its scan, and no OFF-scan hit has average distance below 50 to the event.", "quantifier": "every cadence", "why_tests_cant": "all hit configurations", "anchors": ["bliss/drift_search/event_search.cpp: event_search"]}
{"id": "C25", "title": "Event averages and extent describe its hits", "statement": "The averages reported for an event are the arithmetic means over its hits and [event_start_seconds, event_end_seconds] covers every hit of the event.", "quantifier": "every cadence", "why_tests_cant": "all histories", "anchors": ["bliss/drift_search/event_search.cpp: event_search"]}
{"id": "C26", "title": "Hit distance is a symmetric cache-transparent function", "statement": "The distance used by event_search is symmetric, and caching never changes the value returned: repeated or swapped queries return the same number as an uncached computation.", "quantifier": "every sequence of queries", "why_tests_cant": "depends on the order of queries and comparator being a strict weak order", "anchors": ["bliss/drift_search/event_search.cpp: distance_func, hit_distance"]}
{"id": "C27", "title": "event_search has defined behaviour for every cadence", "statement": "event_search on any cadence, including one with no targets or no scans, returns a (possibly empty) list of events.", "quantifier": "every cadence", "why_tests_cant": "undefined behaviour can look fine in a test run", "anchors": ["bliss/drift_search/event_search.cpp: event_search"]}
{"id": "C28", "title": "Reading a coarse channel accepts exactly the valid indices", "statement": "scan::read_coarse_channel(i) succeeds for 0 <= i < number_of_coarse_channels and throws out_of_range for every other i.", "quantifier": "every scan and index", "why_tests_cant": "boundary over all indices and slices", "anchors": ["bliss/core/scan.cpp: read_coarse_channel, peak_coarse_channel"]}
{"id": "C29", "title": "Slicing a scan is consistent with indexing", "statement": "slice_scan_channels(start,count) gives a scan whose channel i has the same data window, frequency and channel number as channel start+i of the original; slicing a slice equals one combined slice.", "quantifier": "every scan, start, count and depth of slicing, whatever has been cached before", "why_tests_cant": "all compositions of slices and cached reads", "anchors": ["bliss/core/scan.cpp: slice_scan_channels, read_coarse_channel"]}
{"id": "C30", "title": "Coarse channels tile the band", "statement": "The data windows of coarse channels 0..n-1 are disjoint, consecutive and together cover fine channels 0..n*fine-1, and the frequency attached to each equals fch1+foff*first fine channel.", "quantifier": "every scan", "why_tests_cant": "all channelizations", "anchors": ["bliss/core/scan.cpp: read_coarse_channel"]}
{"id": "C31", "title": "Frequency lookup inverts channel frequency", "statement": "get_coarse_channel_with_frequency(f) returns the coarse channel whose frequency range contains f, for every f in the band and either sign of foff.", "quantifier": "every frequency in the band, every channelization (exact arithmetic)", "why_tests_cant": "all real frequencies", "anchors": ["bliss/core/scan.cpp: get_coarse_channel_with_frequency"]}
{"id": "C32", "title": "Reads are repeatable and apply the pipeline exactly once in order", "statement": "Reading a coarse channel any number of times in any order, interleaved with reads of others, gives the same result: the added transforms applied once each, in the order they were added, to the data of the file.", "quantifier": "every sequence of reads, peeks and transform additions", "why_tests_cant": "histories of operations on a cache", "anchors": ["bliss/core/scan.cpp: read_coarse_channel, peak_coarse_channel, add_coarse_channel_transform"]}
{"id": "C33", "title": "Scan hits are the concatenation of channel hits", "statement": "scan::hits() returns the hits of coarse channels 0..n-1 concatenated in channel order, skipping only channels whose pipeline raised a logic error.", "quantifier": "every scan and pipeline", "why_tests_cant": "all pipelines", "anchors": ["bliss/core/scan.cpp: hits"]}
{"id": "C34", "title": "Inferred channelization multiplies back to the channel count", "statement": "For every number of fine channels the inferred (coarse, fine-per-coarse) pair satisfies coarse*fine = channels and inference has defined behaviour.", "quantifier": "every channel count, frequency and time resolution", "why_tests_cant": "division by zero occurs on ranges that tests do not use", "anchors": ["bliss/core/scan.cpp: infer_number_coarse_channels"]}
{"id": "C35", "title": "Consistency validation accepts exactly consistent scans", "statement": "validate_scan_consistency of a target or cadence returns true exactly when all scans agree on fch1, foff and nchans, and get_number_coarse_channels works for consistent targets.", "quantifier": "every list of scans", "why_tests_cant": "all lists", "anchors": ["bliss/core/cadence.cpp: validate_scan_consistency, get_number_coarse_channels, get_coarse_channel_with_frequency"]}
{"id": "C36", "title": "Target name extraction", "statement": "The source name of an observation target is the common source name of its scans when all named scans agree, is never empty, and lists each distinct name once.", "quantifier": "every list of scan names", "why_tests_cant": "all lists of names", "anchors": ["bliss/core/cadence.cpp: extract_source_name_from_scans"]}
{"id": "C37", "title": "Hit serialization round trip", "statement": "Writing a hit to a Cap'n Proto message and reading it back yields an equal hit.", "quantifier": "every hit", "why_tests_cant": "loss depends on field widths and omitted fields", "anchors": ["bliss/file_types/detail/cpnp_hit_builder.cpp: bliss_hit_to_capnp_signal_message, capnp_signal_message_to_bliss_hit"]}
{"id": "C38", "title": "Scan, target and cadence serialization round trip", "statement": "Writing a scan/target/cadence and reading it back preserves the nesting, the order of channels, scans and targets, every hit list and the stored metadata.", "quantifier": "every cadence", "why_tests_cant": "all nestings and partially cached scans", "anchors": ["bliss/file_types/detail/cpnp_hit_builder.cpp"]}
{"id": "C39", "title": "Hits files survive truncation", "statement": "Reading a hits file written from a list returns that list; after a crash that truncates the file at any byte, reading returns a prefix of the list and never an altered hit.", "quantifier": "every list of hits and every crash point", "why_tests_cant": "every truncation offset", "anchors": ["bliss/file_types/cpnp_files.cpp: write_hits_to_capnp_file, read_hits_from_capnp_file"]}
{"id": "C40", "title": "Events file round trip", "statement": "Writing events and reading them back preserves each event's hits and averages in order.", "quantifier": "every list of events", "why_tests_cant": "all lists", "anchors": ["bliss/file_types/events_file.cpp: write_events_to_file, read_events_from_file"]}
{"id": "C41", "title": "Hits file format is chosen consistently for writing and reading", "statement": "A scan's hits written with format f to path p can be read back with the same f and p.", "quantifier": "every path and format string", "why_tests_cant": "all strings", "anchors": ["bliss/file_types/hits_file.cpp: write_scan_hits_to_file, read_scan_hits_from_file"]}
{"id": "C42", "title": "HDF5 data shape is interpreted as [time, feed, frequency]", "statement": "get_data_shape accepts exactly datasets with time, feed and frequency dimensions plus singleton extra dimensions and returns their sizes in that order.", "quantifier": "every list of dimension labels and sizes", "why_tests_cant": "all permutations and extra dimensions", "anchors": ["bliss/file_types/h5_filterbank_file.cpp: get_data_shape"]}
{"id": "C43", "title": "Fresh arrays have a dense row-major layout", "statement": "In a newly created array of any shape the element offsets of distinct indices are distinct and are exactly 0..numel-1, in lexicographic order of the index.", "quantifier": "every shape of any rank", "why_tests_cant": "all ranks and sizes", "anchors": ["bland/bland/ndarray.cpp: ndarray::ndarray, numel, strides", "bland/bland/bland_tensor_internals.cpp: blandDLTensor::blandDLTensor"]}
{"id": "C44", "title": "Slicing selects the requested elements", "statement": "slice(a,{dim,start,end,stride}) with 0<=start<=end gives a view whose element i along dim is element start+i*stride of a, with ceil((end'-start)/stride) elements (end' = min(end,size)), negative indices counting from the end, all inside the parent's elements; other dimensions are unchanged.", "quantifier": "every array view, dimension, start, end and stride, and every chain of slices", "why_tests_cant": "index arithmetic over all views and signs", "anchors": ["bland/bland/ops/ops.cpp: slice"]}
{"id": "C45", "title": "Writing through a slice changes exactly that region", "statement": "Assigning to a slice or filling a view changes the elements the view addresses and no others.", "quantifier": "every view of every array", "why_tests_cant": "frame property over all addresses", "anchors": ["bland/bland/ops/cpu/assignment_op.hpp: assignment_op_impl", "bland/bland/ndarray_slice.cpp: operator="]}
{"id": "C46", "title": "Broadcast shape rules", "statement": "Broadcasting two shapes is commutative, associative where defined, idempotent, and gives the element-wise maximum aligned at the last dimension; incompatible shapes are rejected.", "quantifier": "every pair/triple of shapes", "why_tests_cant": "all ranks and sizes", "anchors": ["bland/bland/internal/include/internal/shape_helpers.cpp: expand_shapes_to_broadcast, compute_broadcast_shape, compute_broadcast_strides"]}
{"id": "C47", "title": "Element-wise binary operations are pointwise", "statement": "add/divide of two arrays (and all element-wise binary operations) returns at each index of the broadcast shape the operation on the corresponding broadcast elements, for any strides and offsets of the operands, reading and writing only inside the buffers, independent of how the inner loop is unrolled.", "quantifier": "every pair of views of any rank, any element operation", "why_tests_cant": "loop unrolling and odometer arithmetic over all shapes", "anchors": ["bland/bland/ops/cpu/elementwise_binary_op.hpp: elementwise_binary_op_impl"]}
{"id": "C48", "title": "Scalar operations are pointwise", "statement": "array op scalar returns op applied at every element of the view, for any strides and offsets.", "quantifier": "every view and scalar", "why_tests_cant": "all shapes", "anchors": ["bland/bland/ops/cpu/elementwise_scalar_op.hpp: elementwise_scalar_op"]}
{"id": "C49", "title": "Scalar-first operators compute what they say", "statement": "s - a, s / a, and comparisons s > a, s >= a, s < a, s <= a return the element-wise result of that expression.", "quantifier": "every scalar and array", "why_tests_cant": "needs asymmetry in all operations", "anchors": ["bland/bland/ndarray.cpp: operator-, operator/", "bland/bland/ops/cpu/comparison_cpu.cpp"]}
{"id": "C50", "title": "Unary operations are pointwise", "statement": "square/sqrt/abs/copy return the operation at each element of the source view broadcast to the output, reading only inside the buffers.", "quantifier": "every view and output shape", "why_tests_cant": "all shapes and strides", "anchors": ["bland/bland/ops/cpu/elementwise_unary_op.hpp: elementwise_unary_op"]}
{"id": "C51", "title": "Squeeze, unsqueeze preserve elements and are inverse", "statement": "unsqueeze(k) then squeeze(k) restores the array; both keep every element at the corresponding index.", "quantifier": "every view and axis", "why_tests_cant": "all ranks and offsets", "anchors": ["bland/bland/ndarray.cpp: squeeze, unsqueeze"]}
{"id": "C52", "title": "Reshape preserves row-major order", "statement": "reshape to a shape with the same number of elements keeps elements in row-major order or is rejected.", "quantifier": "every view and new shape", "why_tests_cant": "all shapes and strides", "anchors": ["bland/bland/ndarray.cpp: reshape"]}
{"id": "C53", "title": "Reductions aggregate exactly the reduced slab", "statement": "sum/mean over any set of axes returns at each remaining index the aggregate of exactly the elements with that index, each counted once, reading only inside the view.", "quantifier": "every view and set of axes", "why_tests_cant": "odometer over arbitrary axes subsets", "anchors": ["bland/bland/ops/cpu/statistical_cpu.cpp: sum_impl, mean_impl"]}
{"id": "C54", "title": "Masked statistics use exactly the unmasked elements", "statement": "masked mean/stddev use precisely the elements whose mask is zero, for any data view and mask view of the same shape, and fail loudly when none is unmasked.", "quantifier": "every data and mask view", "why_tests_cant": "mask strides/offsets combinations", "anchors": ["bland/bland/ops/cpu/statistical_cpu.cpp: masked_mean_impl, masked_stddev_impl, masked_mean_stddev"]}
{"id": "C55", "title": "Median is a middle element", "statement": "median of an array returns a middle order statistic (average of the two for even counts).", "quantifier": "every array", "why_tests_cant": "all permutations", "anchors": ["bland/bland/ops/cpu/statistical_cpu.cpp: median"]}
{"id": "C56", "title": "arange and linspace values", "statement": "arange(start,end,step) has ceil((end-start)/step) elements start+i*step below end; linspace has n elements from start.", "quantifier": "every start, end, step, n", "why_tests_cant": "all values", "anchors": ["bland/bland/ops/creators.cpp: arange, linspace"]}
{"id": "C57", "title": "Deferred arrays evaluate according to policy", "statement": "A memoizing deferred array runs its function at most once, whatever copies are made and however often it is read; a lazy one runs it once per read; an eager one exactly once at creation; all reads return the function's value moved to the requested device.", "quantifier": "every sequence of reads, copies and device moves", "why_tests_cant": "histories of shared state", "anchors": ["bland/bland/ndarray_deferred.cpp"]}
{"id": "C58", "title": "Device strings are parsed", "statement": "The device constructor maps cpu, cuda[:n], cudamanaged[:n], cudahost[:n] to the corresponding device and rejects all other strings.", "quantifier": "every string", "why_tests_cant": "all strings", "anchors": ["bland/bland/ndarray.cpp: dev::dev"]}
{"id": "C59", "title": "FFT shift is a permutation", "statement": "fft_shift_mag_square writes each output bin exactly once with the squared magnitude of the shifted bin, inside the buffer.", "quantifier": "every length", "why_tests_cant": "odd/even lengths", "anchors": ["bland/bland/ops/cpu/frequency_cpu_impl.cpp: fft_shift_mag_square"]}
{"id": "C60", "title": "Rolloff flagging marks exactly the band edges", "statement": "flag_filter_rolloff with width w marks round(w*nchans) channels on each edge for every time step, leaves other flags and channels unchanged, and is idempotent.", "quantifier": "every mask, width, and grid", "why_tests_cant": "all widths including zero; repeated application", "anchors": ["bliss/flaggers/filter_rolloff.cpp: flag_filter_rolloff"]}
{"id": "C61", "title": "Flagging only adds its own flag", "statement": "flag_magnitude / flag_spectral_kurtosis set their flag bit exactly on the samples that meet the condition and keep all other bits.", "quantifier": "every mask, data and threshold", "why_tests_cant": "bit carry depends on prior mask contents", "anchors": ["bliss/flaggers/magnitude.cpp: flag_magnitude", "bliss/flaggers/spectral_kurtosis.cpp: flag_spectral_kurtosis"]}
{"id": "C62", "title": "Sigma clipping terminates with a consistent mask", "statement": "flag_sigmaclip runs at most max_iterations, never unflags a sample within a call and succeeds on float32 data.", "quantifier": "every data, mask and option set", "why_tests_cant": "all iterations", "anchors": ["bliss/flaggers/sigmaclip.cpp: flag_sigmaclip"]}
{"id": "C63", "title": "Noise estimation uses a usable mask", "statement": "estimate_noise_power uses the unflagged samples; when every sample is flagged it reports an error rather than a number.", "quantifier": "every data and mask", "why_tests_cant": "all masks", "anchors": ["bliss/estimators/noise_estimate.cpp: estimate_noise_power, correct_mask"]}
{"id": "C64", "title": "Scan-level operations take effect on later reads", "statement": "Applying flag_*, equalize_*, normalize, integrate_drifts, hit_search or filter_hits to a scan/target/cadence makes every later read of any of its channels return the processed channel.", "quantifier": "every scan and channel", "why_tests_cant": "effects on all later reads", "anchors": ["bliss/flaggers/magnitude.cpp", "bliss/preprocess/passband_static_equalize.cpp", "bliss/drift_search/integrate_drifts.cpp"]}
{"id": "C65", "title": "find_hits writes one output per scan", "statement": "bliss_find_hits run on several input files writes the hits of every scan so that each scan's hits are on disk at the end.", "quantifier": "every list of input files and output options", "why_tests_cant": "all input lists and path strings", "anchors": ["bliss/bliss_find_hits.cpp: main"]}
{"id": "C66", "title": "Threshold clusters are connected", "statement": "Every cell of a cluster returned by find_components_above_threshold can be reached from its first cell by steps of L1 length at most neighbor_l1_dist between cells of that cluster.", "quantifier": "every plane, threshold and neighbour distance", "why_tests_cant": "reachability in clusters of any size and shape", "anchors": ["bliss/drift_search/kernels/connected_components_cpu.cpp: find_components_above_threshold_cpu"]}
{"id": "C67", "title": "Event search misses nothing obvious", "statement": "If two on scans hold hits within distance 50 of each other and the pair keeps clear of every OFF hit, event_search reports at least one event.", "quantifier": "every cadence", "why_tests_cant": "candidates compete for hits; the outcome depends on all candidates processed before", "anchors": ["bliss/drift_search/event_search.cpp: event_search"]}
{"id": "C68", "title": "Slicing a target or cadence keeps its structure", "statement": "slice_observation_channels / slice_cadence_channels give the same targets with the same names and, in the same order, the slice of every scan.", "quantifier": "every cadence, start and count", "why_tests_cant": "Depends on every nesting of targets and scans.", "anchors": ["bliss/core/cadence.cpp: slice_observation_channels, slice_cadence_channels"]}
{"id": "C69", "title": "Choosing a device is all or nothing", "statement": "set_device with a usable device on a scan, target or cadence makes every later read of any channel use it; with an unusable device it throws and leaves the object usable as before.", "quantifier": "every cadence, device and later read", "why_tests_cant": "Depends on all channels, cached or not, and on error paths for hardware the test machine does not have.", "anchors": ["bliss/core/scan.cpp: set_device", "bliss/core/cadence.cpp: set_device"]}
{"id": "C70", "title": "A failed write keeps the old file", "statement": "If writing a scan, target or cadence fails, the previous contents of the file are still there.", "quantifier": "every failure while writing", "why_tests_cant": "Needs failures injected at every point of the write.", "anchors": ["bliss/file_types/cpnp_files.cpp: write_scan_hits_to_capnp_file", "bliss/file_types/detail/raii_file_helpers.cpp"]}
{"id": "C71", "title": "A truncated scan, target or cadence file is reported", "statement": "Reading a scan, target or cadence file that was cut short at any byte throws instead of delivering part of the contents.", "quantifier": "every file and every truncation point", "why_tests_cant": "All crash points of a write.", "anchors": ["bliss/file_types/cpnp_files.cpp: read_scan_hits_from_capnp_file, read_cadence_hits_from_capnp_files"]}
{"id": "C72", "title": "Data type names are parsed", "statement": "The datatype constructor maps every documented name (float, float32, double, float64, int, int8 ... uint64) to its type and rejects any other string.", "quantifier": "every string", "why_tests_cant": "All strings; the outcome for others depends on what memory held.", "anchors": ["bland/bland/ndarray.cpp: datatype::datatype"]}
{"id": "C73", "title": "numel counts the elements", "statement": "numel() of an array of any shape is the number of its elements.", "quantifier": "every shape", "why_tests_cant": "Only arrays too large for a test machine show the difference.", "anchors": ["bland/bland/ndarray.cpp: numel"]}
{"id": "C74", "title": "Statistics of integer arrays", "statement": "sum of an integer array is the exact sum of its elements; mean is the integer part of the exact mean; stddev is the integer part of the exact standard deviation (dividing by the number of elements); masked_mean and masked_stddev are the same of the unmasked elements.", "quantifier": "every integer array and set of axes", "why_tests_cant": "All values and counts; intermediate truncation depends on every element.", "anchors": ["bland/bland/ops/cpu/statistical_cpu.cpp: sum_impl, mean_impl, stddev_impl, masked_mean_impl, masked_stddev_impl"]}
{"id": "C75", "title": "Noise power is a variance and noise amplitude a standard deviation", "statement": "After estimate_noise_power with the stddev estimator, noise_power() is the variance of the unflagged samples and noise_amplitude() their standard deviation.", "quantifier": "every data, mask and estimator option", "why_tests_cant": "All samples and masks; a test that compares against the code itself cannot tell the two apart.", "anchors": ["bliss/estimators/noise_estimate.cpp: estimate_noise_power", "bliss/core/noise_power.cpp: noise_power, noise_amplitude"]}
{"id": "C76", "title": "Normalization divides by the maximum", "statement": "normalize(coarse_channel) replaces every sample by the sample divided by the largest sample of the channel.", "quantifier": "every coarse channel", "why_tests_cant": "All shapes and values; undefined behaviour that happens to work on one machine passes a test.", "anchors": ["bliss/preprocess/normalize.cpp: normalize"]}
{"id": "C77", "title": "GPU component search is deterministic", "statement": "find_components_above_threshold on a CUDA device returns the same protohits (apart from their order) every time it is run on the same plane: one protohit per group of connected peaks, located at the preferred peak of the group.", "quantifier": "every plane, threshold, neighbour distance of at least 2, number of threads and interleaving of the threads of every kernel, including out-of-date reads in the merge", "why_tests_cant": "Races show up only under schedules that no test can force; the number of interleavings is astronomical.", "anchors": ["bliss/drift_search/kernels/connected_components_cuda.cu: initialize_components_kernel, resolve_labels, merge_labels, collect_protohit_md_kernel"]}
{"id": "C78", "title": "GPU component search terminates", "statement": "No schedule of the threads makes find_components_above_threshold on a CUDA device run for ever: the lock-free merge always makes progress.", "quantifier": "every plane and every infinite schedule", "why_tests_cant": "Livelock depends on the schedule.", "anchors": ["bliss/drift_search/kernels/connected_components_cuda.cu: find_root, merge_labels"]}
{"id": "C79", "title": "GPU component search stays inside its memory", "statement": "find_components_above_threshold on a CUDA device never reads or writes outside the arrays it allocates, for any plane and neighbour distance.", "quantifier": "every plane, threshold, neighbour distance and schedule", "why_tests_cant": "All planes; an overflow of device memory often goes unnoticed in a test.", "anchors": ["bliss/drift_search/kernels/connected_components_cuda.cu: find_components_above_threshold_cuda"]}
{"id": "C80", "title": "GPU and CPU component searches agree", "statement": "A component that find_components_above_threshold finds on the CPU is also found on a CUDA device.", "quantifier": "every plane, wherever the component lies", "why_tests_cant": "All positions of all components.", "anchors": ["bliss/drift_search/kernels/connected_components_cuda.cu", "bliss/drift_search/kernels/connected_components_cpu.cpp"]}
{"id": "C81", "title": "GPU drift integration computes every path", "statement": "integrate_drifts on a CUDA device stores in every cell of the plane the mean of the samples of its path that lie in the band, and next to it the numbers of flagged samples of that path, for every order in which the threads run, without reading or writing outside the arrays.", "quantifier": "every spectrum, mask, list of drift rates, number of threads and interleaving", "why_tests_cant": "All schedules and all drift rates, including those that leave the band.", "anchors": ["bliss/drift_search/kernels/drift_integration_cuda.cu: drift_integration"]}
{"id": "C82", "title": "GPU and CPU drift integration agree", "statement": "integrate_drifts gives the same plane and the same flag counters on a CUDA device as on the CPU.", "quantifier": "every spectrum, mask and list of drift rates", "why_tests_cant": "All inputs; needs both devices; floating point hides scale differences.", "anchors": ["bliss/drift_search/kernels/drift_integration_cuda.cu: drift_integration", "bliss/drift_search/kernels/drift_integration_cpu.cpp: integrate_linear_rounded_bins_cpu"]}
{"id": "C83", "title": "GPU local-maximum search reports exactly the maxima", "statement": "find_local_maxima_above_threshold on a CUDA device returns, for every order in which the threads run, one protohit per cell that is above the threshold and not exceeded in its neighbourhood, with the value, noise and band edges of that cell, and never writes outside the protohits it allocated.", "quantifier": "every plane, threshold, neighbour distance, number of threads and interleaving", "why_tests_cant": "The protohits are claimed with an atomic counter: their order and any overflow depend on the schedule and on every cell of the plane.", "anchors": ["bliss/drift_search/kernels/local_maxima_cuda.cu: local_maxima_kernel, find_local_maxima_above_threshold_cuda"]}
{"id": "C84", "title": "GPU element-wise operations are pointwise with broadcasting", "statement": "On a CUDA device a+b, a-b, a*b, a/b, operations with a scalar, unary operations and assignment of a scalar store, for every order in which the threads run, the operation applied to the (broadcast) elements in exactly the elements of the result, read and write nothing outside the arrays, and return.", "quantifier": "every array and view of any rank and size, every pair of shapes that can be broadcast, every interleaving", "why_tests_cant": "All shapes, strides and schedules; the threads walk the array with a carry chain that depends on every size.", "anchors": ["bland/bland/ops/cuda/elementwise_binary_op_cuda.cuh", "bland/bland/ops/cuda/elementwise_unary_op.cuh", "bland/bland/ops/cuda/elementwise_scalar_op_cuda.cuh", "bland/bland/ops/cuda/ops_cuda.cu: assignment_kernel"]}
{"id": "C85", "title": "GPU reductions are exact folds and reproducible", "statement": "On a CUDA device sum, mean, stddev, var and max along any axes, masked or not, return for every order in which the threads of every block run the same array; in exact arithmetic each element is the reduction of exactly the input elements (whose mask is 0) that belong to it; nothing outside the arrays is read or written and no other array changes.", "quantifier": "every array, view, mask and set of axes, every launch size, initial shared memory and interleaving of threads between barriers", "why_tests_cant": "A tree reduction over shared memory with barriers: races show up only under particular schedules and the grouping of the sum depends on all sizes.", "anchors": ["bland/bland/ops/cuda/statistical_cuda.cu: reduction_impl, mean_stddev_impl"]}
{"id": "C86", "title": "GPU count_true counts every true element once", "statement": "count_true of an array or slice on a CUDA device returns the number of its true elements, for every order in which the threads and blocks run and add to the shared counter, reads nothing outside the array, and returns.", "quantifier": "every array, slice, element type, size and interleaving", "why_tests_cant": "The blocks race on one counter and the threads of a block share memory; a lost update shows up only under particular schedules.", "anchors": ["bland/bland/ops/cuda/count.cuh: count_true_kernel, count_launcher", "bland/bland/ops/statistical.cpp: count_true"]}
{"id": "C87", "title": "A drifting tone is found where it is", "statement": "If at every time step of a coarse channel the strongest channel is that of a tone on a straight line that starts in channel c and drifts by d channels, d being a searched drift, and the tone is above the threshold, then integrate_drifts followed by hit_search reports a hit with start channel c, drift d, the frequency of channel c and the SNR of the tone, and no hit is stronger. Whatever the spectrum, no line above the threshold is missed.", "quantifier": "every spectrum, tone, drift range, noise estimate, threshold and search distance", "why_tests_cant": "All positions, drifts and power histories of the tone against all backgrounds; the peak competes with every other cell of the plane.", "anchors": ["bliss/drift_search/integrate_drifts.cpp: integrate_drifts", "bliss/drift_search/hit_search.cpp: hit_search", "bliss/drift_search/kernels/connected_components_cpu.cpp: find_components_above_threshold_cpu"]}
{"id": "C88", "title": "Rounding errors of the reductions stay small", "statement": "sum, mean and the variance behind stddev, masked or not, on the CPU and on a CUDA device, differ from the exact value by at most a small multiple of the rounding unit times the sum, the mean and the mean square of the magnitudes of the elements; the number under the square root is never negative.", "quantifier": "every array, mask, set of axes and order of magnitudes, every rounding with bounded relative error", "why_tests_cant": "Rounding errors depend on every element and their order; tests compare with a tolerance on a few arrays.", "anchors": ["bland/bland/ops/cpu/statistical_cpu.cpp: mean_impl, stddev_impl, masked_mean_stddev, sum_impl", "bland/bland/ops/cuda/statistical_cuda.cu: reduction_impl, mean_stddev_impl"]}
{"id": "C89", "title": "A .dat file says what the hits are", "statement": "After writing the hits of a scan to a .dat file, the file has one row per hit, in order and numbered from 1; each value of the hit stands in the column that the header names after it, to the printed precision.", "quantifier": "every list of hits, header values and double rounding", "why_tests_cant": "All numbers and all their decimal texts; a wrong column shows only in who reads the file.", "anchors": ["bliss/file_types/dat_file.cpp: format_hits_to_dat_list, write_scan_hits_to_dat_file"]}
{"id": "C90", "title": "A .dat file can be read back", "statement": "Reading a .dat file that was written from a scan gives the start time, sampling time, channel width and hits of that scan, to the printed precision.", "quantifier": "every scan whose path and source name contain no newline", "why_tests_cant": "All numbers against regular expressions with backtracking.", "anchors": ["bliss/file_types/dat_file.cpp: write_scan_hits_to_dat_file, read_scan_hits_from_dat_file"]}
{"id": "C91", "title": "Sexagesimal coordinates", "statement": "The right ascension and declination in the header of a .dat file are written as whole units, minutes and seconds below 60 that add up to the coordinate, with its sign.", "quantifier": "every right ascension and declination, with double rounding", "why_tests_cant": "Rounding to a full minute happens only for rare values.", "anchors": ["bliss/file_types/dat_file.cpp: format_archours_to_sexagesimal, format_degrees_to_sexagesimal"]}
{"id": "C92", "title": "Arithmetic and comparison of elements", "statement": "a+b, a-b, a*b, a/b, comparisons and logical_and of two arrays give at every element the mathematical result for the two elements, rounded once if it is a float and cut off towards zero if the left array holds integers.", "quantifier": "every pair of supported element types and every pair of values", "why_tests_cant": "All values of all pairs of types; wrap-around, sign conversion and undefined overflow occur only at the ends of the ranges.", "anchors": ["bland/bland/ops/cpu/arithmetic_cpu_impl.hpp", "bland/bland/ops/cpu/comparison_cpu_impl.hpp", "bland/bland/ops/cpu/arithmetic_cpu.cpp", "bland/bland/internal/include/internal/dispatcher.hpp"]}
{"id": "C93", "title": "GPU spectrum shift fills every bin", "statement": "fft_shift_mag_square on a CUDA device stores, whatever the order of the threads, the squared magnitude of every frequency with the zero frequency in the middle, and stays inside its arrays.", "quantifier": "every length, transform and interleaving", "why_tests_cant": "All lengths, including those beyond 2^24 where a float index is rounded, and all schedules of 512 threads that write the same elements.", "anchors": ["bland/bland/ops/cuda/frequency_cuda.cu: rc2c_shift_abs_square, fft_shift_mag_square"]}
{"id": "C94", "title": "Full transform of a real signal", "statement": "fft of a real array returns all N outputs of the transform; the upper half is the conjugate mirror of the lower half.", "quantifier": "every length and signal", "why_tests_cant": "All lengths, odd and even.", "anchors": ["bland/bland/ops/cuda/frequency_cuda.cu: fft", "bland/bland/ops/cpu/frequency_cpu_impl.cpp: fft", "bland/bland/ops/frequency.cpp: fft"]}
{"id": "C95", "title": "Channelizer response is a normalized folded spectrum", "statement": "gen_coarse_channel_response returns one value per fine channel: the energy of the filter at that offset summed over the coarse channels, relative to the largest.", "quantifier": "every number of fine and coarse channels and of taps", "why_tests_cant": "All sizes; an out-of-bounds store of one element often goes unnoticed in a test.", "anchors": ["bliss/preprocess/passband_static_equalize.cpp: gen_coarse_channel_response"]}
{"id": "C96", "title": "Equalization divides every channel by its response", "statement": "equalize_passband_filter divides every sample by the response of its fine channel and rejects a response of another length.", "quantifier": "every coarse channel and response", "why_tests_cant": "All shapes: the rule that aligns the shapes depends on the sizes being different.", "anchors": ["bliss/preprocess/passband_static_equalize.cpp: equalize_passband_filter"]}
{"id": "C97", "title": "A coarse channel holds the samples of its part of the file", "statement": "After opening a file, with any number of fine channels per coarse channel, data() of coarse channel i has at [t, k] the sample that the file holds for time step t and frequency channel fine*i + k; read_data(offset, count) gives the samples of that window, and without arguments the whole file.", "quantifier": "every file, order of its axes, channelization, channel and window", "why_tests_cant": "All files, orders of axes and windows; the samples have to be compared one by one.", "anchors": ["bliss/file_types/h5_filterbank_file.cpp: read_data, get_data_shape", "bliss/core/scan.cpp: read_coarse_channel"]}
{"id": "C98", "title": "The mask of a channel is that of the file", "statement": "mask() of a freshly opened coarse channel has the shape of its data and holds the flags of the mask dataset of the file, or no flags if the file has none; read_mask() without arguments reads the whole mask.", "quantifier": "every file, mask and window", "why_tests_cant": "All masks; test files have none.", "anchors": ["bliss/file_types/h5_filterbank_file.cpp: read_mask"]}
{"id": "C99", "title": "Numeric attributes are read as the numbers they store", "statement": "read_data_attr of a numeric attribute gives the number stored in the file if the requested type can hold it, whatever the width and byte order used in the file; a missing attribute is reported.", "quantifier": "every attribute type, byte order, value and state of memory", "why_tests_cant": "All types; what uninitialised bytes hold differs from run to run.", "anchors": ["bliss/file_types/h5_filterbank_file.cpp: read_data_attr"]}
{"id": "C100", "title": "String attributes are read as the text they store", "statement": "read_data_attr<std::string> gives the text stored in the attribute, whether it is of fixed or variable length.", "quantifier": "every text and way of storing it", "why_tests_cant": "All texts and paddings.", "anchors": ["bliss/file_types/h5_filterbank_file.cpp: read_data_attr<std::string>"]}
{"id": "C101", "title": "Arrays stay valid while anything refers to them", "statement": "Whatever arrays are created, copied, sliced, assigned, destroyed, handed to or taken from other frameworks, reading an array never touches freed memory, no memory is freed twice, and memory is freed when the last array or export that refers to it is gone.", "quantifier": "every sequence of these operations", "why_tests_cant": "All histories; a use after free usually goes unnoticed in a test.", "anchors": ["bland/bland/bland_tensor_internals.cpp: blandDLTensor", "bland/bland/ndarray.cpp", "bland/python/pybland.hpp: nb_to_bland"]}
{"id": "C102", "title": "Arrays exchanged with other frameworks show the same elements", "statement": "A framework that is handed an array sees at every index the element the library has there, and an array taken over from another framework has the elements that framework sees.", "quantifier": "every array, view, layout and index", "why_tests_cant": "All views; a test of whole arrays cannot see a lost offset.", "anchors": ["bland/bland/bland_tensor_internals.cpp: to_dlpack, blandDLTensor(DLManagedTensor)", "bland/python/pybland.hpp: nb_to_bland"]}
{"id": "C103", "title": "scalarize returns the element", "statement": "scalarize() of a one-element array returns its element and is refused for other arrays; scalarize(index) returns the element at the index, on every device.", "quantifier": "every array, view, device and index", "why_tests_cant": "All views and positions, including those beyond 2^31 elements.", "anchors": ["bland/bland/ndarray.cpp: scalarize"]}
{"id": "C104", "title": "Moving an array to a device preserves its elements", "statement": "to(device) returns an array of the same shape with the same elements on that device, leaves the array it was called on unchanged, and reports an error if that cannot be done.", "quantifier": "every array, view, pair of devices and build", "why_tests_cant": "All views and pairs of devices; uninitialised memory differs from run to run.", "anchors": ["bland/bland/ops/ops.cpp: to"]}
{"id": "C105", "title": "Raw files round trip", "statement": "write_to_file followed by read_from_file with the same type gives the elements of the array in row-major order; neither reads or writes outside the memory of the array.", "quantifier": "every array, view, element type and file", "why_tests_cant": "All layouts, types and file lengths; reading past the end often goes unnoticed.", "anchors": ["bland/bland/ops/cpu/ops_cpu.cpp: write_to_file, read_from_file", "bland/bland/ops/ops.cpp: write_to_file, read_from_file"]}
{"id": "C106", "title": "A tone in the file comes out in the hits file", "statement": "Take a filterbank file that holds, within one coarse channel, a tone that starts in channel k of the file and drifts by d channels. After opening the file, reading the coarse channel, integrate_drifts, hit_search and writing the hits, the hits file reads back with a hit whose frequency is fch1 + k*foff, whose drift rate is that of d channels over the observation and whose SNR is that of the tone, up to the rounding of a few double operations; no hit is stronger.", "quantifier": "every file, channelization, history of reads, coarse channel, tone, drift range, noise estimate and threshold", "why_tests_cant": "All files and tones, through the whole chain; an offset lost between two stages shows up only in the combination.", "anchors": ["bliss/core/scan.cpp: scan, read_coarse_channel", "bliss/file_types/h5_filterbank_file.cpp: read_data, read_mask", "bliss/drift_search/integrate_drifts.cpp: integrate_drifts", "bliss/drift_search/hit_search.cpp: hit_search", "bliss/file_types/hits_file.cpp"]}
{"id": "C107", "title": "No hits without a signal in the file", "statement": "Every hit in the hits file that a search of a coarse channel writes has as its SNR that of a straight drifting line of samples of the filterbank file within that coarse channel, with a searched drift, and that SNR is above the threshold. A file without such a line gives no hits.", "quantifier": "every file, channelization, history of reads, coarse channel, drift range, noise estimate and threshold", "why_tests_cant": "All files; absence of false hits cannot be shown by examples.", "anchors": ["bliss/core/scan.cpp: scan, read_coarse_channel", "bliss/file_types/h5_filterbank_file.cpp: read_data, read_mask", "bliss/drift_search/integrate_drifts.cpp: integrate_drifts", "bliss/drift_search/hit_search.cpp: hit_search", "bliss/file_types/hits_file.cpp"]}
{"id": "C108", "title": "Coarse channels behave as values", "statement": "Copies of a coarse channel, and the drift planes and flags taken from it, share memory, but no program that sets, reads, copies, moves and pushes them can tell: every call gives what it would give if each object had its own, provided that the functions a channel is given to produce its data always produce the same. In particular only setting a field changes it, and changes to a copy are not seen in the original.", "quantifier": "every sequence of calls on any number of channels and drift planes, every device and every evaluation policy", "why_tests_cant": "All histories of calls; the sharing only shows in particular interleavings.", "anchors": ["bliss/core/coarse_channel.cpp: data, set_data, mask, set_mask, set_device, push_device, integrated_drift_plane, set_integrated_drift_plane, noise_estimate", "bliss/core/frequency_drift_plane.cpp: integrated_drift_plane, integrated_rfi, set_device, push_device", "bland/bland/include/bland/ndarray_deferred.hpp"]}
{"id": "C109", "title": "A channel is searched at most once", "statement": "Once a coarse channel has been given a search for hits, the search is run at most once over all copies of the channel made from then on, as long as it does not fail; asking any of them for hits gives the same list from then on, until that copy is given other hits.", "quantifier": "every sequence of calls on any number of channels", "why_tests_cant": "All histories of calls.", "anchors": ["bliss/core/coarse_channel.cpp: hits, set_hits", "bliss/core/include/core/coarse_channel.hpp"]}
{"id": "C110", "title": "Copies and slices of a scan are independent", "statement": "A copy or a slice of a scan shares the channels in memory with the original, but reading, peeking, searching, adding transforms and moving between devices on one is not seen through the other: every program sees what it would see if each scan had its own channels.", "quantifier": "every sequence of calls that open, copy, slice, read, peek, search, transform and move any number of scans", "why_tests_cant": "All histories of calls on several scans; the sharing only shows in particular interleavings.", "anchors": ["bliss/core/scan.cpp: scan, read_coarse_channel, peak_coarse_channel, slice_scan_channels, set_device, hits, add_coarse_channel_transform", "bliss/core/include/core/scan.hpp: _coarse_channels"]}
{"id": "C111", "title": "Arrays are accessed at their element type", "statement": "Whatever the element types of its arrays, an operation either reads and writes each array at the type of its elements or throws a runtime error without touching memory; float32, int32, uint8 and uint32 are accepted by operations on two arrays, these and int64 by operations with scalars, copies and reductions in host memory.", "quantifier": "every operation, every combination of element types (code, width, lanes) and devices, every history", "why_tests_cant": "All combinations of operation and element type, including those nobody thought of.", "anchors": ["bland/bland/internal/include/internal/dispatcher.hpp", "bland/bland/ops/statistical.cpp", "bland/bland/ops/cpu/statistical_cpu.cpp: mean_stddev, masked_mean_stddev, median", "bland/bland/ops/cuda/statistical_cuda.cu", "bland/bland/ops/comparison.cpp", "bland/bland/ops/arithmetic.cpp"]}
{"id": "C112", "title": "Operations run where their arrays live", "statement": "In a process with any number of CUDA devices, host code touches no CUDA memory and a kernel runs on the device whose memory it touches; arrays on different devices are refused; without CUDA support no kernel runs.", "quantifier": "every history of operations on arrays on any devices", "why_tests_cant": "Histories over several devices; the outcome depends on what was allocated before.", "anchors": ["bland/bland/ops/device_dispatch.hpp", "bland/bland/bland_tensor_internals.cpp: blandDLTensor", "bland/bland/ops/ops.cpp", "bland/bland/ops/statistical.cpp", "bliss/drift_search/connected_components.cpp", "bliss/drift_search/local_maxima.cpp", "bliss/drift_search/integrate_drifts.cpp"]}
{"id": "C113", "title": "Reductions into a given array", "statement": "sum, mean, stddev, max and var with an output argument store in the output, which may be any array or slice, what the call without it returns, and change nothing else; an output that does not fit is refused.", "quantifier": "every input array and slice, every set of axes, every output of any shape and layout, overlapping the input or not", "why_tests_cant": "Layouts, overlaps and shapes are unbounded; an overlap gives a plausible wrong number.", "anchors": ["bland/bland/ops/statistical.cpp", "bland/bland/ops/cpu/statistical_cpu.cpp: mean_impl, stddev_impl, sum_impl, max_impl"]}
{"id": "C114", "title": "Standardized moments", "statement": "standardized_moment(a, k, axes) is, for every remaining index, the k-th central moment of the elements with that index divided by the k-th power of their standard deviation; it depends neither on the unit nor on the zero point of the elements.", "quantifier": "every array or slice, every set of axes, every degree, every scale of the elements", "why_tests_cant": "The dependence on the unit only shows for data of small spread; all shapes and degrees.", "anchors": ["bland/bland/ops/cpu/statistical_cpu.cpp: standardized_moment_impl", "bland/bland/ops/statistical.cpp: standardized_moment"]}
{"id": "C115", "title": "Hits files can be cut, joined and damaged", "statement": "A hits file is a sequence of records of equal size. Cutting it after k bytes leaves the first k/104 hits; what follows the hits in the file, such as a second hits file or zeros left by a crash, never changes them, and a file appended to another adds its hits; overwriting the values of one hit leaves all others as they were; reading any file whatsoever ends and does not throw.", "quantifier": "every list of hits, every cut, every tail, every damage to the values of a hit, every file", "why_tests_cant": "Every offset and every content of the damaged bytes.", "anchors": ["bliss/file_types/cpnp_files.cpp: write_hits_to_capnp_file, read_hits_from_capnp_file", "bliss/file_types/hit.capnp: Hit, Signal", "bliss/file_types/detail/cpnp_hit_builder.cpp"]}
{"id": "C116", "title": "The unit of the data does not matter", "statement": "Multiplying every sample of a channel, its noise floor and its noise power by the same positive constant changes nothing about the hits that the search reports except their power, which is multiplied by that constant: same hits, same order, same drifts, same signal to noise ratios. In float arithmetic this holds bit for bit for powers of two as long as nothing overflows or underflows.", "quantifier": "every spectrum, mask, range of drifts, search method and threshold, every positive constant (every power of two in floating point)", "why_tests_cant": "Every spectrum and every constant; whether some comparison or rounding on the way is sensitive to the scale cannot be seen from a few examples.", "anchors": ["bliss/drift_search/kernels/drift_integration_cpu.cpp: integrate_linear_rounded_bins_cpu", "bliss/drift_search/protohit_search.cpp: protohit_search", "bliss/drift_search/hit_search.cpp: hit_search", "bliss/drift_search/connected_components.cpp", "bliss/drift_search/local_maxima.cpp"]}
{"id": "C117", "title": "Flagging, noise estimate and search fit together", "statement": "Flag the band edges and the spectral kurtosis of a coarse channel, estimate the noise of the unflagged samples, integrate drifts, search for hits and filter them: the outcome is that of the drift search on the same spectrum with exactly the flags that the two flaggers define, with the mean and the standard deviation of the unflagged samples as noise floor and noise power. The steps throw when every sample is flagged and return a list of hits otherwise. Every reported hit stems from a straight line whose mean exceeds the mean of the unflagged samples by more than the threshold, and the line touches neither a flagged band edge nor a channel of low kurtosis.", "quantifier": "every channel of at least two time steps, every data in it, every flagging limit, range of drifts, search method and threshold for which the integration is defined", "why_tests_cant": "The arrays pass through six operations with their own index and stride arithmetic; that no step reads a stale mask, the wrong axis or a sample that a former step overwrote must hold for every channel.", "anchors": ["bliss/bliss_find_hits.cpp: main", "bliss/flaggers/filter_rolloff.cpp: flag_filter_rolloff", "bliss/flaggers/spectral_kurtosis.cpp: flag_spectral_kurtosis", "bliss/estimators/noise_estimate.cpp: estimate_noise_power", "bliss/drift_search/integrate_drifts.cpp: integrate_drifts", "bliss/drift_search/hit_search.cpp: hit_search", "bliss/drift_search/filter_hits.cpp: filter_hits"]}
{"id": "C118", "title": "The unit of a file does not matter to the whole search", "statement": "Multiplying every sample of a file by the same positive constant changes nothing about the flags and hits except the powers of the hits, which are multiplied by the constant: the program estimates the noise itself, and every limit it applies is a ratio. In float arithmetic this holds bit for bit for powers of two as long as nothing overflows or underflows.", "quantifier": "every channel as in C117, every positive constant (every power of two in floating point), every content of freshly allocated memory", "why_tests_cant": "Every data and every constant; a limit that is compared with a number that still carries a unit shows only for data of another scale than the test data.", "anchors": ["bliss/bliss_find_hits.cpp: main", "bliss/flaggers/spectral_kurtosis.cpp: flag_spectral_kurtosis", "bliss/estimators/spectral_kurtosis.cpp", "bliss/estimators/noise_estimate.cpp: estimate_noise_power", "bland/bland/ops/cpu/statistical_cpu.cpp", "bliss/drift_search/hit_search.cpp: hit_search"]}
{"id": "C119", "title": "Filter taps follow the windowed-sinc design", "statement": "firdes(num_taps, fc, window) returns num_taps values, each the ideal low-pass tap sinc(fc*t) at distance t from the centre times the Hamming window, up to rounding: symmetric about the centre, 1 at the centre of an odd number of taps, 0 at the multiples of 1/fc, no value above 1 (each within 2^-16). A number of taps that makes no filter is refused.", "quantifier": "every number of taps up to 2^23, every cutoff, every rounding of float and double operations within half a unit in the last place", "why_tests_cant": "Every tap count and cutoff; the switch between two formulas near zero and the accumulated rounding must stay within a bound everywhere, which no finite sample shows.", "anchors": ["bliss/preprocess/passband_static_equalize.cpp: firdes, sinc_lpf, sinc, hamming_window"]}
{"id": "C120", "title": "Printing an array shows its elements in order", "statement": "The text of an array is a first line with its shape, element type and device, followed by its first 25 elements in row-major order, each followed by a blank, with a line break at the end of every dimension; this holds for slices and other views as well as for whole arrays and for every device, and an array without elements is only its first line.", "quantifier": "every shape, offset, stride and content, every element type and device", "why_tests_cant": "The number of dimensions, sizes and strides is unbounded, and tests print a few small compact arrays on the host; the device copy behind printing ignores strides.", "anchors": ["bland/bland/ndarray.cpp: bland::ndarray::repr, pretty_print", "bland/bland/ops/ops.cpp: bland::to"]}
{"id": "C121", "title": "The size along an axis", "statement": "size(axis) is the number of elements along that axis for every existing axis and throws invalid_argument for every other number.", "quantifier": "every array and every integer axis", "why_tests_cant": "Tests try existing axes; the refusal of all others needs every integer.", "anchors": ["bland/bland/ndarray.cpp: bland::ndarray::size"]}
{"id": "C122", "title": "Element-wise arithmetic gives the mathematical result", "statement": "Adding, subtracting, multiplying or dividing the elements of two arrays, or of an array and a scalar, gives for every pair of element types the exact result whenever the type of the first operand can hold it (division of integers drops the fraction), and for float elements the correctly rounded result.", "quantifier": "every pair of element types the library computes with (float, int32, int64, uint8, uint32) and every value of them", "why_tests_cant": "The conversions depend on the pair of types and on the values; tests use small positive numbers of one type.", "anchors": ["bland/bland/ops/cpu/arithmetic_cpu_impl.hpp: elementwise_add_op_ts, elementwise_subtract_op_ts, elementwise_multiply_op_ts, elementwise_divide_op_ts"]}
{"id": "C123", "title": "Comparing elements compares the numbers", "statement": "Every comparison of the elements of two arrays, or of an array and a scalar, is 1 exactly when it holds between the two numbers and 0 otherwise, whatever the two element types.", "quantifier": "every pair of element types, every comparison and every value", "why_tests_cant": "Wrong answers occur only for particular signs and magnitudes of particular type pairs.", "anchors": ["bland/bland/ops/cpu/comparison_cpu_impl.hpp: greater_than_impl, greater_than_equal_to_impl, less_than_impl, less_than_equal_to_impl, equal_to_impl"]}
{"id": "C124", "title": "The bitwise and of arrays has the bits both have", "statement": "a & b of integer arrays has, element by element, exactly the bits that both elements have; float arrays are refused.", "quantifier": "every pair of integer element types and every value", "why_tests_cant": "Tests combine flags of 0 and 1; the result type drops bits of other values.", "anchors": ["bland/bland/ops/cpu/comparison_cpu_impl.hpp: logical_and_impl"]}
{"id": "C125", "title": "Absolute value, square, square root and conversion of elements", "statement": "abs, square, sqrt and copy into an array of another type give for every element the mathematical result when the type holds it (the integer part of the root for integer elements).", "quantifier": "every element type and every value", "why_tests_cant": "The largest and least values of every type behave differently from those tests use.", "anchors": ["bland/bland/ops/cpu/arithmetic_cpu_impl.hpp: elementwise_abs_op, elementwise_square_op, elementwise_sqrt_op, elementwise_copy_op"]}
{"id": "C126", "title": "Default magnitude flagging flags few samples", "statement": "flag_magnitude without a threshold sets the magnitude flag exactly on the samples above mean + 10 standard deviations of all samples of the channel; whatever the data, fewer than one sample in 101 is flagged, and none in a channel of at most 101 samples.", "quantifier": "all sample values, shapes and layouts of data and mask, all masks without the flag", "why_tests_cant": "The bound is a statement about every possible data set; tests can only look at some.", "anchors": ["bliss/flaggers/magnitude.cpp: flag_magnitude(coarse_channel)", "bland/bland/ops/cpu/statistical_cpu.cpp: mean_impl, stddev_impl"]}
{"id": "C127", "title": "Converting a hits file gives the table of the scan", "statement": "Writing a scan to a hits file and converting the file with bliss_hits_to_dat gives the .dat file that writing the scan directly gives: the same header, the same rows in the same order, the same entry in every column. Without an output option the result is named after the input with the extension dat and does not replace another file.", "quantifier": "every scan that can be stored, every list of hits per channel, every printing of numbers, every input path", "why_tests_cant": "The claim composes two file formats over all scans and numbers; a test fixes one scan, usually with hits in one coarse channel.", "anchors": ["bliss/bliss_hits_to_dat.cpp: main", "bliss/file_types/dat_file.cpp: write_scan_hits_to_dat_file", "bliss/file_types/cpnp_files.cpp: read_scan_hits_from_capnp_file"]}
{"id": "C128", "title": "An array survives pickling", "statement": "Taking the Python state of an array and restoring it gives an array of the same shape, type and elements, for whole arrays and for slices.", "quantifier": "all arrays: every shape, stride, offset, memory contents and device", "why_tests_cant": "Holds or fails by layout: a test with a whole array on the host cannot see that slices are stored from the wrong place.", "anchors": ["bland/python/pybland.hpp: __getstate__, __setstate__"]}
{"id": "C129", "title": "Python functions work on the elements the caller sees", "statement": "A function of the Python module that is called with numpy (or other) arrays computes with exactly the elements the caller sees in them, whatever their strides, leaves the arguments unchanged and returns an array with memory of its own in which the caller sees the result; slice returns the selected elements.", "quantifier": "all arrays of any rank and strides (also negative or zero), all element operations, all slice bounds", "why_tests_cant": "All layouts of numpy views; a wrong stride or offset only shows for views, and shared memory only when the argument is changed later.", "anchors": ["bland/python/pybland.hpp: nb_to_bland, add, subtract, multiply, divide, less_than, greater_than, square, slice", "bland/bland/bland_tensor_internals.cpp: blandDLTensor(DLManagedTensor), to_dlpack"]}
{"id": "C130", "title": "A created array has the values asked for", "statement": "zeros, ones and the constructor with a value return a new array of the given shape whose every element is that value; rand_uniform and rand_normal return one whose every element is a separate draw, so that uniform elements are between the bounds.", "quantifier": "all shapes, element types, devices, values and sequences of draws", "why_tests_cant": "All shapes and types; elements left uninitialised may happen to hold plausible values in a test.", "anchors": ["bland/bland/ndarray.cpp: ndarray(dims, initial_value, dtype, device)", "bland/bland/ops/creators.cpp: zeros, ones, rand_normal, rand_uniform, initialize_randn"]}
{"id": "C131", "title": "Element-wise operations use the elements of the view, however far into the array it starts", "statement": "array op scalar, array op array, copy, square, sqrt, abs and fill on a slice read and write exactly the elements of the slice, also when the slice starts billions of elements into a large array.", "quantifier": "all arrays, slices and starting positions", "why_tests_cant": "Tests cannot allocate arrays of more than 2^31 elements.", "anchors": ["bland/bland/ops/cpu/elementwise_scalar_op.hpp: elementwise_scalar_op", "bland/bland/ops/cpu/elementwise_unary_op.hpp: elementwise_unary_op", "bland/bland/ops/cpu/elementwise_binary_op.hpp: elementwise_binary_op", "bland/bland/ops/cpu/assignment_op.hpp: assignment_op"]}
{"id": "C132", "title": "The same element-wise computation gives the same result on the CPU and on a CUDA device", "statement": "Any expression built from element-wise operations (arithmetic, comparisons, operations with scalars, copy, square, abs, sqrt) over arrays or slices returns, on a CUDA device and for every schedule of its threads, an array of the same shape with the same elements as on the CPU, and neither changes an input.", "quantifier": "all expressions, array shapes, slices, contents and thread schedules", "why_tests_cant": "Tests compare a few calls on small arrays, on one machine and one schedule; agreement is needed for every expression.", "anchors": ["bland/bland/ops/cpu/arithmetic_cpu_impl.hpp: elementwise_add_op_ts, elementwise_sqrt_op", "bland/bland/ops/cuda/arithmetic_cuda_impl.cuh: elementwise_add_op_ts, elementwise_sqrt_op", "bland/bland/ops/cuda/elementwise_binary_op_cuda.cuh: elementwise_binary_op_cuda_impl", "bland/bland/ops/cuda/elementwise_unary_op.cuh", "bland/bland/ops/cpu/elementwise_binary_op.hpp: elementwise_binary_op"]}
{"id": "C133", "title": "Search settings do not hide or invent strong signals", "statement": "Searching the same coarse channel again with another SNR threshold or neighbour distance: every hit of the first search whose SNR is above the threshold of the second is matched by a hit of the second that is at least as strong. So raising the threshold finds no signal that was not found, at least as strong, before and loses none above the new threshold, and the SNR of the strongest hit does not depend on the settings.", "quantifier": "all planes, noise estimates, pairs of thresholds and pairs of neighbour distances", "why_tests_cant": "Tests search a few planes with one threshold each; the relation is between two searches of any plane.", "anchors": ["bliss/drift_search/hit_search.cpp: hit_search", "bliss/drift_search/protohit_search.cpp: protohit_search", "bliss/drift_search/kernels/connected_components_cpu.cpp: find_components_above_threshold_cpu"]}
{"id": "C134", "title": "Other targets only veto events", "statement": "The events found in a cadence are the events found in the scans of its first target alone, in the same order and with the same reported values, without those that some hit of another target is close to (average distance to the hits of the event below 50). So adding scans of other targets never creates, alters or reorders events, and the order of those scans does not matter.", "quantifier": "all cadences without NaN: any number of targets, scans and hits", "why_tests_cant": "Tests use one cadence; that the other targets have no influence beyond the veto is about every pair of cadences that share a first target.", "anchors": ["bliss/drift_search/event_search.cpp: event_search", "bliss/drift_search/event_search.cpp: hit_distance"]}
{"id": "C135", "title": "The metadata of a scan are those of its file and of the last assignment", "statement": "A scan opens exactly when its file has the required attributes. After any sequence of set calls every getter reports the value set last, otherwise the attribute of the file, otherwise a value derived from the data; setting one value changes no other. Values that depend on a changed one (duration, number of channels) follow it, and channels report the metadata of their scan.", "quantifier": "all files (any attributes present, missing or unreadable), all sequences of set calls, all getters and channels", "why_tests_cant": "Tests open one file and set few values; the claim is about every combination of missing attributes and every history of assignments and reads.", "anchors": ["bliss/core/scan.cpp: scan::scan", "bliss/core/scan.cpp: scan::set_tsamp", "bliss/core/scan.cpp: scan::set_nchans", "bliss/core/scan.cpp: scan::read_coarse_channel", "bliss/core/coarse_channel.cpp: coarse_channel::fch1"]}
{"id": "C136", "title": "Drift integration superposes, is monotone and does not depend on where in the band a line lies", "statement": "For a spectrum that starts at the beginning of its memory and drifts that fit the band: in exact arithmetic the drift plane of a weighted sum of two spectra is the weighted sum of their drift planes; in float arithmetic with any rounding, raising samples never lowers a cell of the plane; a cell depends on the samples of its own line only; and a line that lies inside two overlapping pieces of a band gives the same cell in both, bit for bit.", "quantifier": "all spectra, masks, drift lists with desmearing, bands, offsets between bands; all roundings", "why_tests_cant": "Relations between the results of two or three runs on arbitrary spectra; a test compares single outputs with a stored result.", "anchors": ["bliss/drift_search/integrate_drifts.cpp: integrate_drifts", "bliss/drift_search/kernels/drift_integration_cpu.cpp: integrate_linear_rounded_bins_cpu"]}
{"id": "C137", "title": "Added power does not hide a signal", "statement": "Let a recording be nowhere darker than another and be searched with the same settings. Then for every hit reported for the darker one a hit that is at least as strong is reported for the brighter one.", "quantifier": "all pairs of spectra, one nowhere below the other; all drift ranges, thresholds, roundings", "why_tests_cant": "It compares two runs on all pairs of inputs; no finite set of recordings shows that no addition of power loses a hit.", "anchors": ["bliss/drift_search/hit_search.cpp: hit_search", "bliss/drift_search/integrate_drifts.cpp: integrate_drifts", "bliss/estimators/noise_estimate.cpp: estimate_noise_power"]}
{"id": "C138", "title": "Events do not depend on the epoch, the band or the direction of drift", "statement": "Searching a cadence that was observed at another epoch or at a frequency offset gives the same events, moved by the same time and frequency, in the same order; searching the mirrored band gives the mirrored events.", "quantifier": "all cadences of any number of targets, scans and hits; all shifts of time and frequency, all mirror frequencies; every implementation of the distance cache's map", "why_tests_cant": "It relates two runs for every cadence and every shift; the greedy grouping depends on all distances at once and on a cache whose ordering is by the values that are shifted.", "anchors": ["bliss/drift_search/event_search.cpp: event_search, distance_func, hit_distance"]}
{"id": "C139", "title": "Which hits form an event depends only on where they are and how they drift", "statement": "SNR, power, bandwidth, indices, flags and channel numbers of hits have no influence on which hits are grouped into events, nor on the start, end, frequency and drift that are reported for the events.", "quantifier": "all cadences; all changes of the other attributes of their hits", "why_tests_cant": "A relation between runs on all pairs of cadences that agree on positions; a test shows a few values of SNR.", "anchors": ["bliss/drift_search/event_search.cpp: event_search, distance_func (snr_difference_weight)"]}
{"id": "C140", "title": "A drifting tone is found where it is on the GPU", "statement": "Integrating drifts and searching for components on a CUDA device, a tone of constant power on a straight line away from the borders of the drift plane is reported at its start channel and drift with its SNR, and every other report is weaker; with a threshold just below the tone it is the only report and the kernels cannot touch memory out of bounds.", "quantifier": "all spectra, bands, numbers of time steps, drift ranges and tones; all thread counts and all schedules of the integration kernel and of the three search kernels; all rounding modes of the slope and the offsets", "why_tests_cant": "It quantifies over all spectra and over all interleavings of four kernels; a GPU test sees one schedule per run.", "anchors": ["bliss/drift_search/kernels/drift_integration_cuda.cu: integrate_drifts", "bliss/drift_search/kernels/connected_components_cuda.cu: find_components_above_threshold_cuda", "bliss/drift_search/integrate_drifts.cpp: compute_drifts"]}
{"id": "C141", "title": "A signal seen only on target is one event", "statement": "Searching a cadence for events, a signal that is measured at most once in each scan of the first target and in at least two of them, and that no other signal and no hit of another target comes close to, is reported as exactly one event, made of exactly its hits, whatever other hits there are and in whatever order they are listed.", "quantifier": "all cadences of any number of targets, scans and hits; all signals with any frequency and drift rate; all orders of the hits; all implementations of the distance cache", "why_tests_cant": "The search is greedy and removes hits as it goes, so that one signal is not broken up by another has to be shown for every list of hits and every order.", "anchors": ["bliss/drift_search/event_search.cpp: event_search, distance_func, hit_distance::operator()"]}
{"id": "C142", "title": "Hits are matched when one signal can have caused both", "statement": "Two hits of different scans are matched when their frequencies and drift rates agree with one drifting signal to within the resolution of the measurement, and are not matched when they drift in opposite directions.", "quantifier": "all pairs of hits: all frequencies, drift rates, start times and durations, all measurement errors", "why_tests_cant": "The measure divides by the squared drift rates, so its behaviour changes over the range of rates and tests at a few rates do not settle it.", "anchors": ["bliss/drift_search/event_search.cpp: distance_func, freq_localization_weight, drift_error_weight, event_search"]}
{"id": "C143", "title": "Events are the same from files as from memory", "statement": "Writing a cadence with its hits to a file and reading it back does not change the events that a search of it finds: the same signals are reported, each with the same hits.", "quantifier": "all cadences of any number of targets, scans and hits whose scans are in memory; all signals; all start times", "why_tests_cant": "Times are stored with fewer bits than they have in memory; whether a signal is still one event afterwards depends on the drift, the start times and the distance to every other hit.", "anchors": ["bliss/file_types/cpnp_files.cpp: write_cadence_hits_to_capnp_files, read_cadence_hits_from_capnp_files", "bliss/file_types/detail/cpnp_hit_builder.cpp: bliss_hit_to_capnp_signal_message, capnp_signal_message_to_bliss_hit", "bliss/drift_search/event_search.cpp: event_search"]}
{"id": "C144", "title": "A transmitter in the files of a cadence is reported as one event", "statement": "A narrow-band signal that drifts at a constant rate, is recorded in every file of the first target of a cadence above the detection threshold and is absent from all other files, comes out of the whole search (files to hits to events) as exactly one event, with exactly one hit of every recording of the first target; every other report is about something else.", "quantifier": "all cadences of files of any size, any number of targets and recordings, any other contents of the files that stay away from the signal, all arithmetic rounding modes", "why_tests_cant": "It takes the composition of opening, reading, integrating, thresholding, clustering and matching, each with rounding, for every file contents; a test fixes one cadence.", "anchors": ["bliss/core/scan.cpp: scan::scan, scan::read_coarse_channel, scan::hits", "bliss/drift_search/integrate_drifts.cpp: integrate_drifts", "bliss/drift_search/hit_search.cpp: hit_search", "bliss/drift_search/connected_components.cpp: find_components_above_threshold", "bliss/drift_search/event_search.cpp: event_search"]}
{"id": "C145", "title": "Normalization and sigma clipping on a CUDA device", "statement": "With the data of a coarse channel on a CUDA device (the default of bliss_find_hits), normalize returns every sample divided by the largest one, and flag_sigmaclip returns the value 32 for exactly the samples that lie outside mean - low*stddev .. mean + high*stddev of the samples not flagged before, after the first round that changes mean and deviation by less than 1e-6 or after max_iter rounds, whatever the schedule of the threads; the mask of the channel is the old mask plus these flags.", "quantifier": "all data of one to four dimensions and below 2^31 samples, all bounds and iteration limits, all schedules of every launch, all contents of uninitialised memory", "why_tests_cant": "The result must not depend on the interleaving of thousands of threads or on what fresh memory contains, and the combination with one-element arrays reads past the end of a vector, which a test on one machine cannot see.", "anchors": ["bliss/preprocess/normalize.cpp: normalize", "bliss/flaggers/sigmaclip.cpp: flag_sigmaclip", "bland/bland/ops/cuda/elementwise_binary_op_cuda.cuh: elementwise_binary_op_impl_wrapper_cuda", "bland/bland/ops/cuda/comparison_cuda.cu: greater_than, less_than", "bland/bland/ops/statistical.cpp: masked_mean_stddev, max", "bland/bland/ndarray.cpp: scalarize"]}
{"id": "C146", "title": "The shape of the band does not matter when its response is given", "statement": "A coarse channel whose samples were multiplied by the response of the channelizer at their fine channel, passed through equalize_passband_filter with that response and then flagged, measured and searched, gives the same hits as the channel without that shape. A response of another length is refused.", "quantifier": "all samples, all responses without zeros, all sizes, all flagging and search options, all contents of fresh memory", "why_tests_cant": "It relates two runs of the whole search for every shape of the band; a test compares a few shapes on a few channels.", "anchors": ["bliss/preprocess/passband_static_equalize.cpp: equalize_passband_filter", "bliss/bliss_find_hits.cpp: main", "bliss/flaggers/spectral_kurtosis.cpp: flag_spectral_kurtosis", "bliss/estimators/noise_estimate.cpp: estimate_noise_power", "bliss/drift_search/hit_search.cpp: hit_search"]}
{"id": "C147", "title": "A drifting tone away from flagged channels is reported by the whole chain", "statement": "A coarse channel with a tone that is stronger than everything else in it is flagged at the band edges and by spectral kurtosis, its noise is estimated from the samples without a flag, and it is searched and filtered as bliss_find_hits does. If the tone's drift is searched, no channel within the largest searched drift of the tone is an edge channel or has low spectral kurtosis, the tone's mean power is above the SNR threshold and the background is not, then the hits returned contain the tone: its start channel, its drift, its SNR, and no hit has a larger SNR.", "quantifier": "all samples, tones, channel sizes, flagging options, drift ranges without desmearing, thresholds, noise arithmetic, contents of fresh memory", "why_tests_cant": "The outcome depends on where every flagged channel lies relative to every searched line and on the noise measured from all other samples; tests inject a few tones.", "anchors": ["bliss/bliss_find_hits.cpp: main", "bliss/flaggers/spectral_kurtosis.cpp: flag_spectral_kurtosis", "bliss/flaggers/filter_rolloff.cpp: flag_filter_rolloff", "bliss/estimators/noise_estimate.cpp: estimate_noise_power", "bliss/drift_search/hit_search.cpp: hit_search", "bliss/drift_search/filter_hits.cpp: filter_hits"]}
{"id": "C148", "title": "Signals elsewhere in the band do not change the hits", "statement": "Search two spectra of the same size with the same options and noise estimate by connected components. Take a range of channels, and suppose the spectra and their flags agree in this range and twice the fastest searched drift to either side of it, and in neither spectrum a drift line that starts within the neighbour distance outside the range is above half the threshold. Then the hits that start in the range are the same in both: every field, in the same order. In particular a weak drifting tone is reported beside signals of any strength that stay that far away.", "quantifier": "all pairs of spectra and flags, channel ranges, drift ranges with or without desmearing, thresholds, neighbour distances, arithmetics of the samples", "why_tests_cant": "The component search visits the whole plane from every candidate, so a signal anywhere could in principle absorb or reorder hits elsewhere; tests compare a few spectra.", "anchors": ["bliss/drift_search/hit_search.cpp: hit_search", "bliss/drift_search/kernels/connected_components_cpu.cpp: find_components_above_threshold_cpu", "bliss/drift_search/kernels/drift_integration_cpu.cpp: integrate_linear_rounded_bins_cpu"]}
{"id": "C149", "title": "Where in the band a signal lies and how wide the searched band is do not matter", "statement": "Search two spectra, of the same or different widths, with the same options and noise estimate by connected components. Suppose a range of channels of the first, with twice the fastest searched drift to either side, is found with its flags somewhere in the second, k channels further, and in neither spectrum a drift line that starts within the neighbour distance outside the range is above half the threshold. Then the hits that start in the range are found in both, in the same order: k channels further, at the frequency of that channel, with the same drift, SNR, power, width, times and flag counts. In particular, searching a part of the band that keeps this distance from a signal reports the signal as searching the whole band does.", "quantifier": "all pairs of spectra and flags of any widths, shifts, channel ranges, drift ranges with or without desmearing, thresholds, neighbour distances, arithmetics of the samples", "why_tests_cant": "The search numbers channels from the start of the band and visits cells in an order that depends on the width of the band; tests search a few bands of one width.", "anchors": ["bliss/drift_search/hit_search.cpp: hit_search", "bliss/drift_search/kernels/connected_components_cpu.cpp: find_components_above_threshold_cpu", "bliss/drift_search/kernels/drift_integration_cpu.cpp: integrate_linear_rounded_bins_cpu"]}
{"id": "C150", "title": "A signal in the files of a cadence is reported as one event by all steps together", "statement": "Put every file of a cadence through all steps of bliss_find_hits with the default flagging: flag the band edges and the channels of unusual spectral kurtosis, measure noise power and floor on the samples without a flag, integrate drifts, search hits by connected components, filter them; then search the cadence for events. Let a narrow-band signal drift at a constant rate, and in every recording of the first target (2 to 1000 of them) let some channels of a coarse channel hold it, above the threshold over the noise measured in that coarse channel, with quiet channels on both sides that separate it from other signals of any strength, and no flag of band edges or low kurtosis in the channels it or its surroundings can reach; let its drift be one the filter keeps. Let everything else above the threshold, in these recordings and those of other targets, keep away from the signal. Then the run succeeds, and exactly one of the reported events has hits of the signal; it has one hit from every recording of the first target, in order, with the frequency, drift rate and start time of the signal.", "quantifier": "all cadences of files with any number of targets, recordings, coarse channels, time steps (up to 512) and contents, flagging and filter options, drift ranges, thresholds, neighbour distances and roundings of float and double arithmetic", "why_tests_cant": "It ties together reading, flagging, noise estimate, integration, search, filter and event search, over all contents of the files; a test runs a few recorded files.", "anchors": ["bliss/bliss_find_hits.cpp: main", "bliss/estimators/noise_estimate.cpp: estimate_noise_power", "bliss/flaggers/filter_rolloff.cpp: flag_filter_rolloff", "bliss/flaggers/spectral_kurtosis.cpp: flag_spectral_kurtosis", "bliss/drift_search/filter_hits.cpp: filter_hits", "bliss/drift_search/event_search.cpp: event_search"]}
{"id": "C151", "title": "Hot pixels are the samples above mean plus five deviations", "statement": "flag_hot_pixels returns flags of the shape of the data in which exactly the samples above mean + 5 standard deviations of all samples are marked, and leaves the data as it is.", "quantifier": "every array of samples (any shape, strides and offsets) and every content of fresh memory", "why_tests_cant": "Fresh memory is often zero in a test, which looks like no hot pixels; whether flags depend on the data needs all contents of memory.", "anchors": ["bliss/rfi/rfi.cpp: flag_hot_pixels"]}
{"id": "C152", "title": "The response tool writes the response it is asked for", "statement": "bliss_generate_channelizer_response writes the response for the given numbers of fine and coarse channels and taps to the output file, or shows the help screen and writes nothing.", "quantifier": "all options and all contents of the file system", "why_tests_cant": "All sizes; the store outside of the array that every usual size causes often goes unnoticed in a test.", "anchors": ["bliss/bliss_generate_channelizer_response.cpp: main", "bliss/preprocess/passband_static_equalize.cpp: gen_coarse_channel_response"]}
{"id": "C153", "title": "find_hits on the host writes the hits it finds", "statement": "bliss_find_hits with host memory as its device (-d cpu) writes or prints the hits of every input file.", "quantifier": "all input files, all options, all contents of the file system, any behaviour of the steps before and after sigma clipping", "why_tests_cant": "It is about every input and every combination of options; that no run works cannot be seen from runs that were not tried.", "anchors": ["bliss/bliss_find_hits.cpp: main", "bliss/flaggers/sigmaclip.cpp: flag_sigmaclip", "bland/bland/ops/cpu/statistical_cpu.cpp: masked_mean_stddev", "bliss/core/scan.cpp: read_coarse_channel, hits"]}
{"id": "C154", "title": "Drift integration does not leave the range of float", "statement": "When the mean of the samples along a drift line is a number a float can represent, the cell of the drift plane is a finite number, computed as if exponents had no limits: no overflow, underflow or NaN on the way.", "quantifier": "all spectrograms with non-negative samples, all drift rates that fit in the band, all rounding modes", "why_tests_cant": "Overflow depends on the partial sums of every line through every spectrogram; tests use samples near 1.", "anchors": ["bliss/drift_search/kernels/drift_integration_cpu.cpp: integrate_linear_rounded_bins_cpu"]}
{"id": "C155", "title": "A fast tone that is smeared over channels is found where it starts", "statement": "A tone that drifts by several channels per time step spreads its power over that many channels in every spectrum. With desmearing on, the drift search reports it at its start channel and with its drift, as the strongest hit.", "quantifier": "all spectrograms with such a tone, all drifts and starts inside the band, all search ranges, all numbers of time steps and channels, any power of the tone at each time step", "why_tests_cant": "The tone's cell competes with every other line of every other drift, with other numbers of averaged channels and other noise; tests try a few drifts.", "anchors": ["bliss/drift_search/integrate_drifts.cpp: compute_drifts", "bliss/drift_search/kernels/drift_integration_cpu.cpp: integrate_linear_rounded_bins_cpu", "bliss/drift_search/hit_search.cpp: hit_search", "bliss/core/frequency_drift_plane.cpp"]}
{"id": "C156", "title": "A fast tone that is smeared over channels is found on the GPU", "statement": "A tone of steady power that drifts by several channels per time step spreads its power over that many channels in every spectrum. With desmearing on, integration and component search on the GPU report it at its start channel, with its drift and its SNR, and every other hit is weaker, whatever order the threads run in.", "quantifier": "all spectrograms with such a tone, all drifts and starts away from the band edges, all search ranges, all numbers of time steps and channels, all schedules and launch sizes", "why_tests_cant": "Cells next to the band edges are means of fewer samples, other drifts average other numbers of channels and have other noise, and threads race; tests see one schedule and a few drifts.", "anchors": ["bliss/drift_search/kernels/drift_integration_cuda.cu: integrate_drifts", "bliss/drift_search/integrate_drifts.cpp: compute_drifts", "bliss/drift_search/kernels/connected_components_cuda.cu: find_components_above_threshold_cuda", "bliss/drift_search/hit_search.cpp: hit_search"]}
{"id": "C157", "title": "A drifting tone is found by the local-maximum search on the GPU", "statement": "A steady drifting tone stronger than everything else is reported by the GPU integration followed by the GPU search for local maxima, at its start channel, with its drift and SNR, and every other hit is weaker, whatever order the threads run in; a tone that is smeared over several channels per time step is found too when desmearing is on. When nothing else is above the threshold, the tone is the only hit and no memory outside the arrays is touched.", "quantifier": "all spectrograms with such a tone, all drifts, starts, search ranges and neighbour distances that keep the tone away from the borders of the drift plane, all numbers of time steps and channels, all schedules and launch sizes", "why_tests_cant": "Tests see one schedule and a few drifts; the CPU version of the same search misses such tones, so agreement of a few planes says nothing about the others.", "anchors": ["bliss/drift_search/kernels/local_maxima_cuda.cu: find_local_maxima_above_threshold_cuda", "bliss/drift_search/kernels/drift_integration_cuda.cu: integrate_drifts", "bliss/drift_search/integrate_drifts.cpp: compute_drifts", "bliss/drift_search/hit_search.cpp: hit_search"]}
{"id": "C158", "title": "Hits on flagged lines are removed after a search on the GPU", "statement": "hit_search on a drift plane on a CUDA device followed by filter_hits: every hit names a different cell of the drift plane, with its drift rate and an SNR above the threshold, and filter_hits removes exactly the hits whose drift line has samples in the filter rolloff or of low spectral kurtosis (and those of zero drift if asked to), whichever search method is chosen.", "quantifier": "all drift planes and flag counts, both search methods, all thresholds and neighbour distances, all schedules and launch sizes, all filter options", "why_tests_cant": "The flag counts of a hit come from device memory through an export that is written separately for each method; a test sees one plane and one method, and unflagged planes hide missing counts.", "anchors": ["bliss/drift_search/kernels/connected_components_cuda.cu: find_components_above_threshold_cuda", "bliss/drift_search/kernels/local_maxima_cuda.cu: find_local_maxima_above_threshold_cuda", "bliss/drift_search/hit_search.cpp: hit_search", "bliss/drift_search/filter_hits.cpp: filter_hits"]}
