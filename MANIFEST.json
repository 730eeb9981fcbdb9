{
 "claims": [
  {
   "property": "C01",
   "status": "proved",
   "theorems": [
    "Bliss.Drift.C01_drift_plane_cell",
    "Bliss.Drift.mem_path_up",
    "Bliss.Drift.mem_path_down",
    "Bliss.Drift.path_nodup"
   ],
   "note": "For unsliced views; C01_ignores_view_offset shows a sliced view is integrated at the wrong place."
  },
  {
   "property": "C02",
   "status": "partial",
   "theorems": [
    "Bliss.Drift.C02_in_bounds_iff_fits_partial",
    "Bliss.Drift.C02_too_fast_drift_is_ub"
   ],
   "note": "Exact characterisation: in bounds iff all drifts fit. The second half of the property is refuted."
  },
  {
   "property": "C03",
   "status": "partial",
   "theorems": [
    "Bliss.Drift.C03_integrators_agree_partial",
    "Bliss.Drift.C03_generic_cell",
    "Bliss.Drift.C03_sliced_input_differs",
    "Bliss.Drift.C03_too_fast_differs"
   ],
   "note": "Proved for two-dimensional arrays of any strides that start at the beginning of their allocation. Missing: views that start inside an allocation; there the property is false (C03_sliced_input_differs) because the CPU kernel ignores view offsets."
  },
  {
   "property": "C04",
   "status": "partial",
   "theorems": [
    "Bliss.Drift.C04_counters_exact_partial",
    "Bliss.Drift.C04_counters_mod_256",
    "Bliss.Drift.C04_counter_wraps"
   ],
   "note": "Counters are exact modulo 256 for every input; exact below 256 samples; 256 flagged samples read as 0."
  },
  {
   "property": "C05",
   "status": "partial",
   "theorems": [
    "Bliss.Drift.C05_drift_list",
    "Bliss.Drift.C05_drift_list_partial",
    "Bliss.Drift.C05_drops_last_drift"
   ],
   "note": "Proved when the step divides the range; otherwise the code drops a drift (counterexample proved). The general theorem gives the exact list in all cases."
  },
  {
   "property": "C06",
   "status": "partial",
   "theorems": [
    "Bliss.Drift.C06_path_geometry_partial",
    "Bliss.Drift.C06_path_geometry_nearest_partial",
    "Bliss.Drift.C06_large_drift_misses",
    "Bliss.Gpu.C06_cuda_geometry_partial"
   ],
   "note": "Any rounding mode up to 2^22 channels, round-to-nearest up to 2^23; the endpoint is off for a representable drift near 2^24 (counterexample proved). The CUDA integrator, which rounds through float, up to 2^22/3 channels. Exponent range unbounded."
  },
  {
   "property": "C07",
   "status": "partial",
   "theorems": [
    "Bliss.Drift.C07_defined_partial",
    "Bliss.Drift.C07_single_step_undefined",
    "Bliss.Drift.C07_empty_range_undefined"
   ],
   "note": "Defined for T >= 2 and drifts within half the band; with one time step or an empty range the code is undefined (proved)."
  },
  {
   "property": "C08",
   "status": "proved",
   "theorems": [
    "Bliss.Drift.C08_between",
    "Bliss.Drift.C08_constant",
    "Bliss.Drift.C08_nonneg"
   ],
   "note": "For drift lists that fit in the band (otherwise the integrator is undefined, C02)."
  },
  {
   "property": "C09",
   "status": "partial",
   "theorems": [
    "Bliss.Drift.C09_mirror_partial",
    "Bliss.Drift.C09_opposite_drifts",
    "Bliss.Drift.C09_edge_cells_differ"
   ],
   "note": "Bit for bit for every cell whose drift ends inside the band; cells near the edge differ (counterexample proved)."
  },
  {
   "property": "C10",
   "status": "proved",
   "theorems": [
    "Bliss.Comp.C10_components_partition"
   ],
   "note": "Every grid, mask and neighbourhood list; termination included."
  },
  {
   "property": "C100",
   "status": "partial",
   "theorems": [
    "Bliss.H5Attr.C100_string_partial",
    "Bliss.H5Attr.C100_padding_kept",
    "Bliss.H5Attr.C100_not_a_string"
   ],
   "note": "Proved for variable length and for fixed length without padding; padding is kept as part of the text (proved)."
  },
  {
   "property": "C101",
   "status": "partial",
   "theorems": [
    "Bliss.Own.C101_own_arrays_partial",
    "Bliss.Own.C101_freed_exactly",
    "Bliss.Own.C101_borrowed_partial",
    "Bliss.Own.C101_read_iff",
    "Bliss.Own.C101_assigned_undefined",
    "Bliss.Own.C101_dangling_undefined",
    "Bliss.Own.C101_export_keeps"
   ],
   "note": "Proved for all histories of arrays the library allocates, and for borrowed arrays that are not assigned and whose lender keeps the memory. Assigning from a borrowed array loses the pointer, and a borrowed array does not keep its memory (both proved, with an exact characterisation)."
  },
  {
   "property": "C102",
   "status": "partial",
   "theorems": [
    "Bliss.Move.C102_export_partial",
    "Bliss.Move.C102_export_exact",
    "Bliss.Move.C102_slice_shown_from_start",
    "Bliss.Move.C102_import_partial",
    "Bliss.Move.C102_byte_offset_ignored",
    "Bliss.Move.C102_no_strides_undefined",
    "Bliss.Move.C102_reexport_displaced"
   ],
   "note": "Proved for arrays without offsets and for imports with strides and byte offset 0. An exported slice shows the start of the array, byte offsets are ignored, missing strides are undefined, and a re-export is displaced by uninitialised memory (all proved)."
  },
  {
   "property": "C103",
   "status": "partial",
   "theorems": [
    "Bliss.Move.C103_scalarize_partial",
    "Bliss.Move.C103_offset_ignored",
    "Bliss.Move.C103_device_scalar",
    "Bliss.Move.C103_many_refused",
    "Bliss.Move.C103_empty_undefined",
    "Bliss.Move.C103_index_partial",
    "Bliss.Move.C103_far_undefined",
    "Bliss.Move.C103_wrong_rank_refused",
    "Bliss.Move.C103_device_index_undefined"
   ],
   "note": "Proved for arrays without offsets on the CPU and for all arrays on a device; with an index for elements within 2^31. A slice on the CPU gives the first element of what it was cut from; empty arrays, far elements and an index on a device are undefined (all proved)."
  },
  {
   "property": "C104",
   "status": "partial",
   "theorems": [
    "Bliss.Move.C104_to_device_partial",
    "Bliss.Move.C104_to_device_exact",
    "Bliss.Move.C104_to_host_partial",
    "Bliss.Move.C104_to_host_exact",
    "Bliss.Move.C104_same_device",
    "Bliss.Move.C104_host_to_host_exact",
    "Bliss.Move.C104_no_cuda_refused",
    "Bliss.Move.C104_device_to_device_lost",
    "Bliss.Move.C104_refused",
    "Bliss.Move.C104_host_memory_stuck"
   ],
   "note": "Proved for arrays stored row by row (to the device: from the start of their memory), with an exact description for all others. Moves between cuda devices copy nothing and report success; pinned host memory cannot be moved (both proved)."
  },
  {
   "property": "C105",
   "status": "partial",
   "theorems": [
    "Bliss.RawFile.C105_write_partial",
    "Bliss.RawFile.C105_read_partial",
    "Bliss.RawFile.C105_round_trip_partial",
    "Bliss.RawFile.C105_small_types_undefined",
    "Bliss.RawFile.C105_wide_types_halved",
    "Bliss.RawFile.C105_ragged_undefined",
    "Bliss.RawFile.C105_tiny_types_undefined"
   ],
   "note": "Proved for 4-byte elements in every layout and files of whole elements. Arrays of 1- and 2-byte elements are read outside their memory, half of 8-byte arrays is lost, and files of other lengths overflow (all proved)."
  },
  {
   "property": "C106",
   "status": "partial",
   "theorems": [
    "Bliss.Hit.C106_tone_in_file_partial",
    "Bliss.Hit.C106_tone_in_file_float_partial",
    "Bliss.Hit.C106_smeared_tone_in_file_partial"
   ],
   "note": "Proved for the axes time, feed, frequency, drifts that are not desmeared (C106_smeared_tone_in_file_partial: desmeared drifts, with the start frequency within the channels the tone is spread over, sums exact) and coarse channels of at most 2^24 fine channels, with every double operation on frequency and drift rounded. The sums along lines are exact in one theorem and rounded in any mode in the other, which needs at most 512 time steps and a tone at least twice as strong as the rest."
  },
  {
   "property": "C107",
   "status": "partial",
   "theorems": [
    "Bliss.Hit.C107_hits_are_lines_partial"
   ],
   "note": "Proved for every arithmetic with a transitive irreflexive order, drifts for which the integration is defined (C07), desmeared or not, thresholds from FLT_MIN up and coarse channels of at most 2^24 fine channels."
  },
  {
   "property": "C108",
   "status": "partial",
   "theorems": [
    "Bliss.Channel.C108_channels_are_values_partial",
    "Bliss.Channel.C108_only_setting_changes_partial",
    "Bliss.Channel.C108_copy_independent_partial",
    "Bliss.Channel.C108_on_channel_device",
    "Bliss.Channel.C108_unsteady_function",
    "Bliss.Channel.C108_no_data_ub"
   ],
   "note": "Proved when the functions given to a channel always give the same result; C108_unsteady_function shows that the claim fails without it. C108_no_data_ub: channels read back from a hits file have no data, and asking for it is undefined."
  },
  {
   "property": "C109",
   "status": "proved",
   "theorems": [
    "Bliss.Channel.C109_searched_at_most_once",
    "Bliss.Channel.C109_hits_stay",
    "Bliss.Channel.C109_copies_share_the_search"
   ],
   "note": ""
  },
  {
   "property": "C11",
   "status": "proved",
   "theorems": [
    "Bliss.Comp.C11_components_connected",
    "Bliss.Comp.C11_components_exact",
    "Bliss.Comp.C11_asymmetric_splits"
   ],
   "note": "Exact connected components for symmetric neighbourhoods; splitting shown for an asymmetric one."
  },
  {
   "property": "C110",
   "status": "proved",
   "theorems": [
    "Bliss.Scan.Shared.C110_copies_are_independent",
    "Bliss.Scan.Shared.C110_undisturbed"
   ],
   "note": "Channel objects are values here (C108 is about what is inside one). push_device of a scan is not among the calls."
  },
  {
   "property": "C111",
   "status": "partial",
   "theorems": [
    "Bliss.Dispatch.C111_typed_partial",
    "Bliss.Dispatch.C111_checked_assume_nothing",
    "Bliss.Dispatch.C111_history_typed_partial",
    "Bliss.Dispatch.C111_arith_accepts",
    "Bliss.Dispatch.C111_scalar_accepts",
    "Bliss.Dispatch.C111_reduce_accepts",
    "Bliss.Dispatch.C111_mean_stddev_reinterprets",
    "Bliss.Dispatch.C111_mean_stddev_out_of_bounds",
    "Bliss.Dispatch.C111_median_reinterprets",
    "Bliss.Dispatch.C111_mask_accepted_iff",
    "Bliss.Dispatch.C111_masked_accepts",
    "Bliss.Dispatch.C111_uint32_mask_reinterpreted",
    "Bliss.Dispatch.C111_cuda_mask_unchecked",
    "Bliss.Dispatch.C111_integrate_reinterprets"
   ],
   "note": "False for mean_stddev, masked_mean_stddev and median (everything is read as float), for masks (a uint32 or int8 mask passes the test and is read as bytes; CUDA code has no test) and for the drift search; each failure is proved."
  },
  {
   "property": "C112",
   "status": "partial",
   "theorems": [
    "Bliss.Dispatch.C112_fresh_placed_partial",
    "Bliss.Dispatch.C112_single_device_partial",
    "Bliss.Dispatch.C112_mixed_devices_refused",
    "Bliss.Dispatch.C112_without_cuda",
    "Bliss.Dispatch.C112_move_selects",
    "Bliss.Dispatch.C112_find_refused",
    "Bliss.Dispatch.C112_host_only_on_host",
    "Bliss.Dispatch.C112_host_code_on_cuda",
    "Bliss.Dispatch.C112_wrong_device"
   ],
   "note": "Proved for operations that create their result on any history, and for every operation but abs, median and standardized_moment when one CUDA device is used. Shown false: these three run host code on CUDA memory, and operations into a given array run on the device last allocated on. Device numbers are taken to exist and memory not to run out."
  },
  {
   "property": "C113",
   "status": "partial",
   "theorems": [
    "Bliss.Stat.C113_into_partial",
    "Bliss.Stat.C113_overlap",
    "Bliss.Stat.C113_wrong_shape",
    "Bliss.Stat.C113_var_new",
    "Bliss.Stat.C113_exact_var",
    "Bliss.Stat.C113_var_into"
   ],
   "note": "Proved for outputs of the right shape that share no element with the input, in any layout. An overlapping output gives wrong sums, an output of another shape is accepted, and var leaves the standard deviation in the output (all proved)."
  },
  {
   "property": "C114",
   "status": "partial",
   "theorems": [
    "Bliss.Stat.C114_into_partial",
    "Bliss.Stat.C114_new",
    "Bliss.Stat.C114_result",
    "Bliss.Stat.C114_value_partial",
    "Bliss.Stat.C114_shift_invariant",
    "Bliss.Stat.C114_second_degree",
    "Bliss.Stat.C114_scale_dependent",
    "Bliss.Stat.C114_accuracy",
    "Bliss.Stat.C114_not_kurtosis",
    "Bliss.Stat.C114_one_element",
    "Bliss.Stat.C114_eps"
   ],
   "note": "Which elements enter and the independence of the zero point are proved for all arrays; the value is given exactly (exact arithmetic): the moment times (n/(n-1))^(1-k/2)/(1+eps/s^k). So it depends on the unit, is not the kurtosis, and is NaN for single elements (all proved)."
  },
  {
   "property": "C115",
   "status": "proved",
   "theorems": [
    "Bliss.File.Capnp.framing_lawful",
    "Bliss.File.Capnp.C115_file_size",
    "Bliss.File.Capnp.C115_cut",
    "Bliss.File.Capnp.C115_followed_by",
    "Bliss.File.Capnp.C115_zeroed_tail",
    "Bliss.File.Capnp.C115_damaged_values",
    "Bliss.File.Capnp.C115_any_file",
    "Bliss.File.Capnp.C115_damaged_framing"
   ],
   "note": "On the bytes: Cap'n Proto's stream and struct encoding is written out for the messages of a hits file. C115_damaged_framing shows the limit of the claim: one damaged byte outside the values loses all hits without an error."
  },
  {
   "property": "C116",
   "status": "proved",
   "theorems": [
    "Bliss.Hit.C116_unit_of_data",
    "Bliss.Hit.C116_power_of_two",
    "Bliss.Hit.scaling",
    "Bliss.Hit.binaryScaling",
    "Bliss.Hit.binaryScalingD"
   ],
   "note": "C116_unit_of_data for any change of unit that commutes with the arithmetic used; scaling: every positive constant in exact arithmetic; C116_power_of_two: powers of two with every float and double operation rounded to nearest even and an unbounded exponent."
  },
  {
   "property": "C117",
   "status": "partial",
   "theorems": [
    "Bliss.Hit.C117_search",
    "Bliss.Hit.C117_returns",
    "Bliss.Hit.C117_reported_partial",
    "Bliss.Hit.C117_kurtosis",
    "Bliss.Hit.C117_noise",
    "Bliss.Hit.driftSearch_returns"
   ],
   "note": "C117_search and C117_returns are complete for the steps listed. Missing: normalize and flag_sigmaclip, which the program also calls and which are undefined or throw on the data of a channel (C76, C62); in C117_reported_partial lines of 256 samples and more (C04), and the line is that of the first cell of the cluster (C16)."
  },
  {
   "property": "C118",
   "status": "proved",
   "theorems": [
    "Bliss.Hit.C118_unit_of_file",
    "Bliss.Hit.C118_power_of_two",
    "Bliss.Hit.realSk_gain",
    "Bliss.Hit.realStat_gain",
    "Bliss.Hit.binSk_gain",
    "Bliss.Hit.binStat_gain",
    "Bliss.Hit.binSqrt_scale"
   ],
   "note": "C118_unit_of_file for any change of unit that commutes with the arithmetic used; realSk_gain, realStat_gain and scaling (C116): every positive constant in exact arithmetic; C118_power_of_two: powers of two with every operation rounded to nearest even and an unbounded exponent. The steps are those of C117."
  },
  {
   "property": "C119",
   "status": "partial",
   "theorems": [
    "Bliss.Firdes.C119_taps",
    "Bliss.Firdes.C119_design",
    "Bliss.Firdes.C119_symmetric",
    "Bliss.Firdes.C119_one_tap",
    "Bliss.Firdes.C119_no_taps"
   ],
   "note": "Proved for 2 to 2^23 taps in float arithmetic with arbitrary rounding errors of half an ulp. C119_one_tap: with a single tap the result is a NaN (violation). Missing: cutoffs between 0 and 2^-100; the result is a list rather than an ndarray."
  },
  {
   "property": "C12",
   "status": "partial",
   "theorems": [
    "Bliss.Comp.C12_clusters_disjoint_complete_partial",
    "Bliss.Comp.C12_negative_threshold_loses_cells"
   ],
   "note": "Everything for thresholds >= 0 or NaN; completeness is violated by negative thresholds (counterexample proved)."
  },
  {
   "property": "C120",
   "status": "partial",
   "theorems": [
    "Bliss.Repr.C120_host",
    "Bliss.Repr.C120_device_partial",
    "Bliss.Repr.C120_page_locked_throws",
    "Bliss.Repr.C120_unknown_type",
    "Bliss.Repr.C120_type_names",
    "Bliss.Repr.C120_device_names",
    "Bliss.Repr.C120_layout_elements",
    "Bliss.Repr.C120_device_view_wrong"
   ],
   "note": "Proved on the host for every view, and on cuda devices for elements that follow each other row by row. False on devices: other views print the wrong elements, page-locked arrays cannot be printed (both proved). Complex elements are not modelled; how a number is printed is a parameter."
  },
  {
   "property": "C121",
   "status": "partial",
   "theorems": [
    "Bliss.Repr.C121_size_partial",
    "Bliss.Repr.C121_negative_axis"
   ],
   "note": "Proved for every axis that is not negative; a negative axis is not refused but reads in front of the shape (proved)."
  },
  {
   "property": "C122",
   "status": "partial",
   "theorems": [
    "Bliss.Elements.C122_integers_partial",
    "Bliss.Elements.C122_exact_partial",
    "Bliss.Elements.C122_arrays_partial",
    "Bliss.Elements.C122_div_zero_ub",
    "Bliss.Elements.C122_negative_by_unsigned_wrong",
    "Bliss.Elements.C122_float_partial",
    "Bliss.Elements.C122_integer_float_partial",
    "Bliss.Elements.C122_float_scalar_overflow_ub"
   ],
   "note": "Proved for +, -, * on all integer types, for division when the common C++ type holds both operands, for float with any other type while integers stay within 2^24. False (proved): dividing a negative int32 by a uint32. Infinities and NaN operands and float overflow are not modelled."
  },
  {
   "property": "C123",
   "status": "partial",
   "theorems": [
    "Bliss.Elements.C123_compare_partial",
    "Bliss.Elements.C123_float_order",
    "Bliss.Elements.C123_negative_unsigned_wrong",
    "Bliss.Elements.C123_float_equal_wrong"
   ],
   "note": "Proved whenever the common C++ type holds both numbers. False otherwise (proved): every negative int32 compares greater than every uint32 below 2^31; different numbers compare equal against a float. NaN is not modelled here."
  },
  {
   "property": "C124",
   "status": "partial",
   "theorems": [
    "Bliss.Elements.C124_bits",
    "Bliss.Elements.C124_bytes_partial",
    "Bliss.Elements.C124_high_bits_lost",
    "Bliss.Elements.C124_float_refused"
   ],
   "note": "Proved for the lowest eight bits and hence for all operands below 256. False for wider elements (proved): all other bits are lost, x & x can be 0."
  },
  {
   "property": "C125",
   "status": "partial",
   "theorems": [
    "Bliss.Elements.C125_abs_partial",
    "Bliss.Elements.C125_abs_least_ub",
    "Bliss.Elements.C125_square_partial",
    "Bliss.Elements.C125_copy_partial",
    "Bliss.Elements.C125_sqrt_integer_partial",
    "Bliss.Elements.C125_sqrt_negative"
   ],
   "note": "Proved for every element but the least signed integer (abs, undefined: proved), and for integer roots below 2^52. The square root of the C library is assumed to be as good as the format allows."
  },
  {
   "property": "C126",
   "status": "partial",
   "theorems": [
    "Bliss.Flag.C126_samples_partial",
    "Bliss.Flag.C126_fraction_partial",
    "Bliss.Flag.C126_single",
    "Bliss.Flag.C126_rounding_flags_half"
   ],
   "note": "Which samples are flagged holds for every arithmetic; the bound on their number is for exact arithmetic and is attained (C126_single). The full claim is false in float arithmetic: the deviation of close samples is computed as 0 and 7 of 15 are flagged (proved). Missing: masks that have the flag already (C61_magnitude_twice)."
  },
  {
   "property": "C127",
   "status": "partial",
   "theorems": [
    "Bliss.Cadence.C127_table_partial",
    "Bliss.Cadence.C127_channel_lost",
    "Bliss.Cadence.C127_default_name",
    "Bliss.Cadence.C127_names_collide",
    "Bliss.Cadence.C127_input_overwritten"
   ],
   "note": "Rows, their order, eleven of twelve columns and all header lines but the file name agree. The full claim is false: the coarse channel is 0 in every converted row (C127_channel_lost), inputs of the same name collide and an input with the extension dat is overwritten. Not modelled: the text listed for output '-'."
  },
  {
   "property": "C128",
   "status": "partial",
   "theorems": [
    "Bliss.Python.C128_state_partial",
    "Bliss.Python.C128_state_misses",
    "Bliss.Python.C128_not_restored"
   ],
   "note": "The state of a whole row-major array has all its elements. The full claim is false: elements of slices are missing (C128_state_misses) and __setstate__ restores nothing (C128_not_restored)."
  },
  {
   "property": "C129",
   "status": "partial",
   "theorems": [
    "Bliss.Python.C129_unary",
    "Bliss.Python.C129_scalar",
    "Bliss.Python.C129_binary_partial",
    "Bliss.Python.C129_binary_left_partial",
    "Bliss.Python.C129_slice_partial"
   ],
   "note": "Operations on one array and with a number in full; two arrays for equal shapes; slices for bounds inside the array, with the missing last element of C44. Not covered: the choice between overloads for Python numbers, reductions and transforms."
  },
  {
   "property": "C13",
   "status": "partial",
   "theorems": [
    "Bliss.Comp.C13_peak_is_strongest_partial",
    "Bliss.Comp.C13_tiny_snr_has_no_peak"
   ],
   "note": "NaN-safe; needs a threshold of at least the smallest normal float, below which the code violates the claim (counterexample proved)."
  },
  {
   "property": "C130",
   "status": "partial",
   "theorems": [
    "Bliss.Create.C130_filled",
    "Bliss.Create.C130_zeros_ones",
    "Bliss.Create.C130_uniform_partial",
    "Bliss.Create.C130_normal_partial",
    "Bliss.Create.C130_normal_refused",
    "Bliss.Create.C130_type_refused",
    "Bliss.Create.C130_page_locked_refused",
    "Bliss.Create.C130_value_undefined",
    "Bliss.Create.C130_uniform_uninitialised",
    "Bliss.Create.C130_random_device_undefined"
   ],
   "note": "Full on the host for float, int32, uint8 and uint32. The full claim is false: other types throw (zeros, ones) or stay uninitialised (rand_uniform), values out of range are undefined, drawing into cuda memory is undefined. Not modelled: the generator (any sequence of draws) and filling cuda memory (C84)."
  },
  {
   "property": "C131",
   "status": "partial",
   "theorems": [
    "Bliss.Nd.C131_scalar_partial",
    "Bliss.Nd.C131_unary_partial",
    "Bliss.Nd.C131_binary_partial",
    "Bliss.Nd.C131_fill_partial",
    "Bliss.Nd.C131_far_view_ub",
    "Bliss.Nd.C131_far_view_wrong"
   ],
   "note": "Full for slices that start less than 2^31 elements into their array. The full claim is false: the start is summed in an int, so later slices read before the array or at another place in it (proved)."
  },
  {
   "property": "C132",
   "status": "partial",
   "theorems": [
    "Bliss.Gpu.C132_expression_partial",
    "Bliss.Gpu.C132_sqrt_float",
    "Bliss.Gpu.C132_sqrt_integer_partial",
    "Bliss.Gpu.C132_left_operand_differs",
    "Bliss.Gpu.C132_sqrt_differs"
   ],
   "note": "Full for expressions over inputs of equal rank, one to four dimensions, no empty dimension, less than 2^31 elements, in which a first operand of -, * or a comparison need not be broadcast; roots of floats and of integers below 2^22 agree. The full claim is false: a - b broadcasts a on the device only, and the device rounds integers to float before taking the root (both proved); operands of lower rank differ too (C47_front_alignment_wrong, C84_front_alignment_right)."
  },
  {
   "property": "C133",
   "status": "partial",
   "theorems": [
    "Bliss.Hit.C133_other_settings_partial",
    "Bliss.Comp.C133_peak_in_cluster",
    "Bliss.Hit.C133_more_hits",
    "Bliss.Comp.C133_lower_threshold_splits"
   ],
   "note": "Proved for connected components on the CPU, thresholds from FLT_MIN up and any arithmetic with a transitive irreflexive order; not for the local-maxima method, which finds nothing for distances of at least 1 (C17). The number of hits is not monotone and clusters are not nested (both proved)."
  },
  {
   "property": "C134",
   "status": "partial",
   "theorems": [
    "Bliss.Event.C134_off_targets_veto_partial",
    "Bliss.Event.C134_more_off_targets_partial",
    "Bliss.Event.C134_exact"
   ],
   "note": "Proved for every arithmetic without NaN and every cadence in which no two scans start at the same time, or on whose hits the distance is symmetric. Missing: scans that start together and have different durations, where the cached answer depends on which order was asked first (C26)."
  },
  {
   "property": "C135",
   "status": "partial",
   "theorems": [
    "Bliss.Scan.C135_opens",
    "Bliss.Scan.C135_sets",
    "Bliss.Scan.C135_reported_partial",
    "Bliss.Scan.C135_read_after",
    "Bliss.Scan.C135_read_before",
    "Bliss.Scan.C135_stale_duration",
    "Bliss.Scan.C135_stale_channels"
   ],
   "note": "Getters: full, with an exact description for missing attributes: nbits, nchans and nifs are uninitialised instead of derived. The rest is false: the duration and the number of coarse channels do not follow set_tsamp and set_nchans, and channels read before a set call keep the old metadata (all proved)."
  },
  {
   "property": "C136",
   "status": "proved",
   "theorems": [
    "Bliss.Drift.C136_superposition",
    "Bliss.Drift.C136_monotone",
    "Bliss.Hit.C136_float",
    "Bliss.Drift.C136_local",
    "Bliss.Drift.C136_translate"
   ],
   "note": "Full for spectra that start at the beginning of their memory and drifts that fit the band (drifts that do not fit are undefined, C02)."
  },
  {
   "property": "C137",
   "status": "partial",
   "theorems": [
    "Bliss.Hit.C137_brighter_partial",
    "Bliss.Hit.C137_estimated_noise_hides"
   ],
   "note": "True, in single precision with any rounding, when both are searched against the same noise estimate. False with the noise estimated from the data: raising one sample of a quiet channel hides a strong tone elsewhere (proved for the whole chain of flagging, noise estimate, search and filter)."
  },
  {
   "property": "C138",
   "status": "partial",
   "theorems": [
    "Bliss.Event.C138_origin_partial",
    "Bliss.Event.C138_mirror_partial",
    "Bliss.Event.C138_band_matters"
   ],
   "note": "Proved in exact arithmetic for cadences in which no two scans start at the same time or all hits have one duration. False in double arithmetic (C138_band_matters): the same two hits are an event at 398 MHz and none 8192 MHz higher, because a distance next to the threshold is rounded across it."
  },
  {
   "property": "C139",
   "status": "partial",
   "theorems": [
    "Bliss.Event.C139_only_place_partial",
    "Bliss.Event.C139_only_place_float",
    "Bliss.Event.C139_infinite_snr",
    "Bliss.Event.C139_special_exact"
   ],
   "note": "Proved for every arithmetic without NaN and in particular for float and double arithmetic with rounding, for cadences in which no two scans start at the same time or on whose hits the distance is symmetric. False for infinite SNR, where zero times the difference is NaN and no event is reported (C139_infinite_snr)."
  },
  {
   "property": "C14",
   "status": "partial",
   "theorems": [
    "Bliss.Comp.C14_near_cells_merged_partial",
    "Bliss.Comp.C14_exact_distance_not_merged"
   ],
   "note": "Proved for L1 distance < neighbor_l1_dist; at exactly that distance the code violates the claim (counterexample proved)."
  },
  {
   "property": "C140",
   "status": "partial",
   "theorems": [
    "Bliss.Gpu.C140_tone_found_on_gpu_partial",
    "Bliss.Gpu.C140_only_the_tone_partial",
    "Bliss.Gpu.C140_tone_found_float_partial",
    "Bliss.Gpu.C140_counters"
   ],
   "note": "Proved for drifts that are not desmeared, with sums in exact arithmetic, and with sums and SNR in float arithmetic of any rounding mode for up to 512 time steps and a tone at least twice as strong as the rest. Desmeared drifts: C156. Missing: at the borders the GPU search reports nothing (C80)."
  },
  {
   "property": "C141",
   "status": "partial",
   "theorems": [
    "Bliss.Event.C141_isolated_signal_partial",
    "Bliss.Event.C141_reported_partial",
    "Bliss.Event.C141_drifting_signal_partial",
    "Bliss.Event.C141_drifting_signal_float_partial",
    "Bliss.Event.C141_slow_signal_lost"
   ],
   "note": "Proved for every arithmetic without NaN and any distance cache: exactly when for cadences in which no two scans start at the same time or on whose hits the distance is symmetric, and that the event is reported in all others; in exact arithmetic for a drifting signal in terms of its frequency and drift, for scans of any lengths; and the same in double and float arithmetic with errors of measurement, for at most 1000 scans within a million seconds. Fails when a slow signal is measured one drift step apart in two scans (proved)."
  },
  {
   "property": "C142",
   "status": "partial",
   "theorems": [
    "Bliss.Event.C142_measurements_partial",
    "Bliss.Event.C142_exact_measurements",
    "Bliss.Event.C142_float_distance_partial",
    "Bliss.Event.C142_slow_drift_split",
    "Bliss.Event.C142_one_step_from_zero",
    "Bliss.Event.C142_opposite_drifts_match"
   ],
   "note": "A bound on the distance of two measurements of one signal is proved; it fails for slow signals (drift rates 0 and q are never matched for any step q from 1e-7 to 0.4 Hz/s) and for fast ones (opposite drifts of 1 Hz/s or more are matched). Exact arithmetic, all durations; the distance in double and float arithmetic is within 1e-5 of it and 1/1000 for hits of realistic sizes."
  },
  {
   "property": "C143",
   "status": "partial",
   "theorems": [
    "Bliss.Event.C143_read_back",
    "Bliss.Event.C143_exact_partial",
    "Bliss.Event.C143_drifting_signal_partial",
    "Bliss.Event.C143_start_time_grid",
    "Bliss.Event.C143_event_lost"
   ],
   "note": "What the search sees of a file is proved for every storable cadence; the events are the same when the records hold the times exactly, and in double and float arithmetic a drifting signal with room for 358 s of drift is one event before and after. Fails in general: start times of this century are stored to a multiple of 512 s, and a signal of 12 Hz/s that is one event in memory is lost (proved)."
  },
  {
   "property": "C144",
   "status": "partial",
   "theorems": [
    "Bliss.Event.C144_signal_reported_partial",
    "Bliss.Event.C144_signal_among_others_partial",
    "Bliss.Hit.C144_weak_tone_alone",
    "Bliss.Hit.C144_strong_tone_alone",
    "Bliss.Hit.C144_silent_channel"
   ],
   "note": "Proved from the contents of the files to the events, in float and double arithmetic with any rounding, for signals that are the only ones above the threshold in their coarse channel, and for signals in coarse channels with any other signals, of any strength, that are separated from it by quiet channels; that a tone is the only one is proved for weak tones (every other line below the threshold) and for strong ones away from the edges of the channel (one group). Missing: overflow and underflow, desmeared drifts, more than 512 time steps. With the noise measured by the program: C150."
  },
  {
   "property": "C145",
   "status": "partial",
   "theorems": [
    "Bliss.Gpu.C145_standard_undefined",
    "Bliss.Gpu.C145_shapes_unused",
    "Bliss.Gpu.C145_normalize_partial",
    "Bliss.Gpu.C145_clip_partial",
    "Bliss.Gpu.C145_channel_partial",
    "Bliss.Gpu.C145_some_left"
   ],
   "note": "As written the calls are undefined (C145_standard_undefined: the host side of a launch reads past the end of the shape of the one-element operand). If that read only delivers some number, which the device code does not use (C145_shapes_unused), both functions are proved for all schedules, sigma clipping in exact arithmetic. Missing: float rounding in sigma clipping, NaN, data that is a slice."
  },
  {
   "property": "C146",
   "status": "partial",
   "theorems": [
    "Bliss.Hit.C146_shape_removed",
    "Bliss.Hit.C146_power_of_two_partial",
    "Bliss.Hit.C146_other_responses"
   ],
   "note": "Proved in exact arithmetic for every response without zeros and every size for which the division is defined (as many time steps as fine channels is undefined, C146_other_responses), and bit for bit in float arithmetic for responses that are powers of two. Missing: rounding of the quotient for other responses. On a scan the equalization has no effect (C64_effect_lost), so the claim is about coarse channels."
  },
  {
   "property": "C147",
   "status": "partial",
   "theorems": [
    "Bliss.Hit.C147_tone_survives_partial",
    "Bliss.Hit.C147_tone_survives_float_partial",
    "Bliss.Hit.C147_smeared_tone_survives_partial"
   ],
   "note": "Proved over any ordered field for the samples, with any arithmetic for kurtosis, mean and deviation. Converse of C117_reported_partial. A tone next to the flagged edge is lost (example beside the theorem). The second theorem has every float operation on the drift lines and the SNR rounded in any mode, for up to 512 time steps and a tone at least twice as strong as the rest. The third theorem is for desmeared drifts: a tone that drifts several channels per time step and is spread over as many. Missing: desmeared drifts in float, overflow and underflow; channels with a stronger signal elsewhere are the subject of C148."
  },
  {
   "property": "C148",
   "status": "partial",
   "theorems": [
    "Bliss.Hit.C148_hits_local",
    "Bliss.Hit.C148_tone_among_others_partial",
    "Bliss.Hit.C148_tone_among_others_float_partial",
    "Bliss.Hit.C148_smeared_among_others_partial"
   ],
   "note": "C148_hits_local is the full statement about hits, in any arithmetic of the samples (also float), for the CPU search. QuietLines.of_level gives its quiet-lines hypothesis from a bound on the samples, over an ordered field. C148_tone_among_others_partial extends C147 to channels with stronger signals elsewhere; C148_tone_among_others_float_partial does so with every float operation on the lines and the SNR rounded in any mode; missing there: desmeared drifts, overflow and underflow. C148_smeared_among_others_partial is for desmeared drifts and tones of several channels per time step, sums exact. A signal near the tone takes its hit over (example beside the theorem)."
  },
  {
   "property": "C149",
   "status": "proved",
   "theorems": [
    "Bliss.Hit.C149_hits_move"
   ],
   "note": "In any arithmetic of the samples (also float), for the CPU search. The range must keep twice the fastest drift from the edges of both bands: lines cut off at an edge are shorter (example beside the theorem: a part that cuts the tone off misses it)."
  },
  {
   "property": "C15",
   "status": "partial",
   "theorems": [
    "Bliss.Comp.C15_extent_brackets_peak_partial",
    "Bliss.Comp.C13_tiny_snr_has_no_peak"
   ],
   "note": "Needs a threshold of at least the smallest normal float, as C13."
  },
  {
   "property": "C150",
   "status": "partial",
   "theorems": [
    "Bliss.Event.C150_signal_all_steps_partial"
   ],
   "note": "The composition of C106, C117, C144 and C147 for whole files, with float and double arithmetic in any rounding; the noise is the one the steps measure. Missing: overflow and underflow, desmeared drifts (C155 has the search for them), more than 512 time steps, float error of the noise estimate against the exact standard deviation (bounded in C88)."
  },
  {
   "property": "C151",
   "status": "partial",
   "theorems": [
    "Bliss.HotPixels.C151_flags_are_memory",
    "Bliss.HotPixels.C151_all_wrong"
   ],
   "note": "Violated. Proved: the call succeeds, the shape is right and the data stay, but every flag is what the new memory held; for every data and threshold there is memory that marks exactly the wrong samples."
  },
  {
   "property": "C152",
   "status": "partial",
   "theorems": [
    "Bliss.ResponseTool.C152_never_writes",
    "Bliss.ResponseTool.C152_even_undefined",
    "Bliss.ResponseTool.C152_help"
   ],
   "note": "Violated (a consequence of C95). Proved: no run writes a response; even numbers of fine channels, among them the two examples of the help screen, are undefined behaviour; the help screen writes nothing."
  },
  {
   "property": "C153",
   "status": "partial",
   "theorems": [
    "Bliss.HostRun.C153_no_hits"
   ],
   "note": "Violated. Proved: a run over at least one coarse channel changes no file and prints no hits; when it ends regularly it has shown an error message and its status is 0. The cause is C62_float_throws, which every read of a channel meets. What the other steps do is left open."
  },
  {
   "property": "C154",
   "status": "partial",
   "theorems": [
    "Bliss.Hit.C154_range_does_not_matter",
    "Bliss.Hit.C154_overflow"
   ],
   "note": "Violated for huge samples: the division by the number of time steps comes after the sum, so two samples of 2^127 give infinity although their mean is 2^127 (C154_overflow, for rounding modes that overflow to infinity). Proved: when every sample is 0 or between 2^-78 and 2^100 and time steps times desmear bins is at most 2^24, every cell in IEEE floats (with limited exponents, subnormals, infinities and NaN) is finite and equals the cell computed with unbounded exponents, which is what C146 and the other float theorems are about."
  },
  {
   "property": "C155",
   "status": "partial",
   "theorems": [
    "Bliss.Hit.C155_smeared_tone_partial",
    "Bliss.Hit.C155_noise_falls",
    "Bliss.Hit.C155_tone_over_noise_partial",
    "Bliss.Hit.C155_noise_steady",
    "Bliss.Hit.C155_start_frequency",
    "Bliss.Hit.C155_smeared_tone_float_partial",
    "Bliss.Hit.C155_noise_law"
   ],
   "note": "Proved with sums in exact arithmetic, for every number of channels per time step; the other samples are at most the noise floor, or in C155_tone_over_noise_partial at most a level above it that the tone is clear of. The noise of the lines is required to fall with the number of averaged channels as an inverse square root does; C155_noise_steady (up to 2^17 channels) and C155_noise_falls proves this for the double and float operations of the code, for up to 2^19 channels per time step. Tones that are not spread over as many channels as the code averages are displaced (C87_desmeared_tone_displaced). C155_smeared_tone_float_partial has every float operation of sums and SNR rounded in any mode, for up to 512 time steps times channels per time step and a tone at least twice the noise floor; C155_noise_law proves its condition on the noise. Missing: overflow and underflow, larger observations in float, the start frequency (that of the middle of the cluster)."
  },
  {
   "property": "C156",
   "status": "partial",
   "theorems": [
    "Bliss.Gpu.C156_smeared_tone_on_gpu_partial",
    "Bliss.Gpu.C156_smeared_tone_float_partial",
    "Bliss.Gpu.C156_tone_over_noise_on_gpu_partial"
   ],
   "note": "Proved with sums in exact arithmetic, and in float arithmetic of any rounding mode for lines of up to 512 samples and a tone at least twice the floor, for every number of channels per time step and every schedule; the other samples are at most the noise floor, or in C156_tone_over_noise_on_gpu_partial at most a level above it that the tone is clear of. The laws of the noise are those C155_noise_falls, C155_noise_steady and C155_noise_law prove. Missing: longer lines in float, tones nearer to the band edges than twice the largest number of channels per time step, power that varies in time (on the GPU a line cut by the edge is a mean over fewer times, so strong times can win)."
  },
  {
   "property": "C157",
   "status": "partial",
   "theorems": [
    "Bliss.Gpu.C157_tone_is_maximum_partial",
    "Bliss.Gpu.C157_only_the_tone_partial",
    "Bliss.Gpu.C157_smeared_tone_is_maximum_partial",
    "Bliss.Gpu.C157_tone_is_maximum_float_partial",
    "Bliss.Gpu.C157_smeared_tone_float_partial"
   ],
   "note": "Proved with sums in exact arithmetic, for tones within a channel per time step and for desmeared ones, every neighbour distance from 1 and every schedule; also with every float operation rounded, for up to 512 samples on a line. Missing: more samples on a line in float, sums out of the exponent range of float, and for desmeared tones what C156 lacks."
  },
  {
   "property": "C158",
   "status": "partial",
   "theorems": [
    "Bliss.Gpu.C158_hits_describe_cells",
    "Bliss.Gpu.C158_low_kurtosis_removed_partial",
    "Bliss.Gpu.C158_rolloff_kept",
    "Bliss.Gpu.C158_maxima_not_filtered",
    "Bliss.Gpu.C158_flagged_maximum_kept"
   ],
   "note": "The property fails: the component search on the GPU exports a rolloff count of 0 for every hit, so hits in the filter rolloff are kept, and the local-maximum search on the GPU exports no counts, so no hit is removed for its flags. Proved for every plane and schedule: what the hits say, that hits of low kurtosis are removed after the component search, and that nothing else is removed for its flags."
  },
  {
   "property": "C16",
   "status": "partial",
   "theorems": [
    "Bliss.Comp.C16_counts_at_first_cell_partial",
    "Bliss.Comp.C16_counts_not_at_peak"
   ],
   "note": "The code reports the counters of the first scanned cell, not of the peak (counterexample proved)."
  },
  {
   "property": "C17",
   "status": "partial",
   "theorems": [
    "Bliss.Comp.C17_no_neighbourhood_partial",
    "Bliss.Comp.C17_finds_nothing",
    "Bliss.Comp.C17_misses_maximum"
   ],
   "note": "The code violates the claim (counterexamples proved); the partial theorem covers an empty neighbourhood."
  },
  {
   "property": "C18",
   "status": "partial",
   "theorems": [
    "Bliss.Hit.C18_hit_search_partial",
    "Bliss.Hit.C18_tiny_snr_undefined"
   ],
   "note": "Needs a threshold of at least the smallest normal float."
  },
  {
   "property": "C19",
   "status": "partial",
   "theorems": [
    "Bliss.Hit.C19_filter_partial",
    "Bliss.Hit.C19_selection",
    "Bliss.Hit.C19_idempotent",
    "Bliss.Hit.C19_append",
    "Bliss.Hit.C19_channel",
    "Bliss.Hit.C19_adds_entries"
   ],
   "note": "Kept hits are returned with possibly extra zero entries in their flag counts (proved)."
  },
  {
   "property": "C20",
   "status": "proved",
   "theorems": [
    "Bliss.Hit.C20_hit_order",
    "Bliss.Hit.C20_nan_breaks_weak_order",
    "Bliss.Hit.C20_ignores_channel",
    "Bliss.Hit.nanOrd_lawful"
   ],
   "note": ""
  },
  {
   "property": "C21",
   "status": "partial",
   "theorems": [
    "Bliss.File.C21_state_round_trip_partial",
    "Bliss.File.C21_kept",
    "Bliss.File.C21_second_trip",
    "Bliss.File.C21_two_hits_same_state"
   ],
   "note": "Exact characterisation; the full claim is false (two different hits with the same state)."
  },
  {
   "property": "C22",
   "status": "proved",
   "theorems": [
    "Bliss.Event.C22_events_use_distinct_scans"
   ],
   "note": "For every arithmetic and cache behaviour."
  },
  {
   "property": "C23",
   "status": "proved",
   "theorems": [
    "Bliss.Event.C23_no_reuse_no_invention",
    "Bliss.Event.C23_hits_from_on_scans"
   ],
   "note": "Multiset statement over hits tagged with their scan."
  },
  {
   "property": "C24",
   "status": "partial",
   "theorems": [
    "Bliss.Event.C24_distances",
    "Bliss.Event.C24_distances_partial",
    "Bliss.Event.C24_closest_partial"
   ],
   "note": "Full for cadences in which no two scans start at the same time, or on whose hits the distance is symmetric (C24_distances). Otherwise each distance is known only up to the order of its arguments (C26). The closest-hit clause is proved for each step of building an event."
  },
  {
   "property": "C25",
   "status": "partial",
   "theorems": [
    "Bliss.Event.C25_event_fields_partial",
    "Bliss.Event.C25_means_rounded_partial",
    "Bliss.Event.C25_extent_of_first_scan",
    "Bliss.Event.C25_extent_misses_hits"
   ],
   "note": "Means proved in exact arithmetic, and up to 2n+2 rounding errors with every float and double operation rounded to nearest; the time extent covers only the first scan (counterexample proved)."
  },
  {
   "property": "C26",
   "status": "partial",
   "theorems": [
    "Bliss.Event.C26_symmetric_partial",
    "Bliss.Event.C26_not_symmetric",
    "Bliss.Event.C26_cache_partial",
    "Bliss.Event.C26_search_partial",
    "Bliss.Event.C26_cache_changes_answer",
    "Bliss.Event.C26_comparator_not_transitive",
    "Bliss.Event.C26_nan_conflates"
   ],
   "note": "Symmetric only for equal durations; the cache then returns the uncached value. Otherwise false (counterexamples proved). During a search the cache does not show when no two scans start at the same time, whatever the durations (C26_search_partial)."
  },
  {
   "property": "C27",
   "status": "partial",
   "theorems": [
    "Bliss.Event.C27_defined_partial",
    "Bliss.Event.C27_no_targets_undefined",
    "Bliss.Event.C27_single_scan"
   ],
   "note": "Fails for a cadence without targets."
  },
  {
   "property": "C28",
   "status": "partial",
   "theorems": [
    "Bliss.Scan.C28_valid_index_partial",
    "Bliss.Scan.C28_invalid_index_partial",
    "Bliss.Scan.C28_accepts_n",
    "Bliss.Scan.C28_n_undefined_in_memory"
   ],
   "note": "Index n itself is accepted (counterexample for every readable scan); all other indices behave as claimed."
  },
  {
   "property": "C29",
   "status": "partial",
   "theorems": [
    "Bliss.Scan.C29_slice_index_partial",
    "Bliss.Scan.C29_slice_slice_partial",
    "Bliss.Scan.C29_slice_rest",
    "Bliss.Scan.C29_slice_any_arithmetic_partial",
    "Bliss.Scan.C29_slice_double_partial",
    "Bliss.Scan.C29_rounding",
    "Bliss.Scan.C29_slice_not_checked"
   ],
   "note": "Exact arithmetic on frequencies, slices inside the scan. In any arithmetic everything but the first frequency agrees, in double arithmetic the frequencies agree to seven rounding errors (both for scans without transforms), and they can differ (proved)."
  },
  {
   "property": "C30",
   "status": "proved",
   "theorems": [
    "Bliss.Scan.C30_tiling",
    "Bliss.Scan.C30_remainder_dropped"
   ],
   "note": "Over arbitrary floating point; also shows that channels beyond n*fine belong to no coarse channel."
  },
  {
   "property": "C31",
   "status": "partial",
   "theorems": [
    "Bliss.Scan.C31_frequency_lookup_partial",
    "Bliss.Scan.C31_double_partial",
    "Bliss.Scan.C31_uneven_channels",
    "Bliss.Scan.C31_rounding"
   ],
   "note": "Exact arithmetic with nchans = n*fine; in double arithmetic for frequencies at least five rounding errors of the band inside the channel. False when the fine count does not divide the band and, at channel edges, in double arithmetic (counterexamples proved)."
  },
  {
   "property": "C32",
   "status": "proved",
   "theorems": [
    "Bliss.Scan.C32_reads_repeatable",
    "Bliss.Scan.C32_read_again",
    "Bliss.Scan.C32_peek_after_read",
    "Bliss.Scan.C32_set_fch1_stale"
   ],
   "note": ""
  },
  {
   "property": "C33",
   "status": "partial",
   "theorems": [
    "Bliss.Scan.C33_scan_hits_partial",
    "Bliss.Scan.C33_read_error_aborts"
   ],
   "note": "A logic error while reading (rather than while asking for hits) is not skipped (counterexample proved)."
  },
  {
   "property": "C34",
   "status": "partial",
   "theorems": [
    "Bliss.Scan.C34_multiplies_back_partial",
    "Bliss.Scan.C34_defined_partial",
    "Bliss.Scan.C34_small_undefined",
    "Bliss.Scan.C34_middle_undefined",
    "Bliss.Scan.C34_missing_nchans_undefined"
   ],
   "note": "The product is right whenever a pair is delivered; division by zero for small unknown channelizations (proved for all of them)."
  },
  {
   "property": "C35",
   "status": "partial",
   "theorems": [
    "Bliss.Cadence.C35_different_counts_rejected_partial",
    "Bliss.Cadence.C35_rejects_every_target",
    "Bliss.Cadence.C35_rejects_every_cadence",
    "Bliss.Cadence.C35_cadence_without_scans",
    "Bliss.Cadence.C35_consistent_target_rejected",
    "Bliss.Cadence.C35_empty_target_undefined"
   ],
   "note": "The comparison is inverted: every non-empty target is rejected (proved for all targets)."
  },
  {
   "property": "C36",
   "status": "partial",
   "theorems": [
    "Bliss.Cadence.C36_never_empty",
    "Bliss.Cadence.C36_common_name",
    "Bliss.Cadence.C36_no_name",
    "Bliss.Cadence.C36_several_names_partial",
    "Bliss.Cadence.C36_target_name_partial",
    "Bliss.Cadence.C36_repeated_name",
    "Bliss.Cadence.C36_joined_name_hidden"
   ],
   "note": "A name that returns after another one is listed again (counterexample proved)."
  },
  {
   "property": "C37",
   "status": "partial",
   "theorems": [
    "Bliss.File.C37_hit_round_trip_partial",
    "Bliss.File.C37_kept",
    "Bliss.File.C37_returned",
    "Bliss.File.C37_second_trip",
    "Bliss.File.C37_start_time_lost"
   ],
   "note": "Exact characterisation of the hits that survive, and what becomes of every hit of at most 2^24 bins (C37_returned); the full claim is false (counterexample proved)."
  },
  {
   "property": "C38",
   "status": "partial",
   "theorems": [
    "Bliss.Cadence.C38_channel_partial",
    "Bliss.Cadence.C38_scan_partial",
    "Bliss.Cadence.C38_cadence_partial",
    "Bliss.Cadence.C38_target_name_lost",
    "Bliss.Cadence.C38_telescope_lost",
    "Bliss.Cadence.C38_empty_scan",
    "Bliss.Cadence.C38_unread_channels_lost"
   ],
   "note": "Nesting, order, hits (each as C37_returned says) and most metadata for scans fully in memory; telescope, target names and channels not in memory are lost (proved)."
  },
  {
   "property": "C39",
   "status": "partial",
   "theorems": [
    "Bliss.File.C39_truncated_file",
    "Bliss.File.C39_truncation_partial",
    "Bliss.File.Capnp.framing_lawful"
   ],
   "note": "Every crash point; every hit of at most 2^24 bins comes back as C37_returned says, a storable one unaltered. The hypothesis on the stream framing is proved of the actual bytes in Capnp.framing_lawful."
  },
  {
   "property": "C40",
   "status": "partial",
   "theorems": [
    "Bliss.File.C40_events_round_trip_partial"
   ],
   "note": "Hits preserved in order (each as C37_returned says); averages and extents are not stored and read back as zero (same theorem)."
  },
  {
   "property": "C41",
   "status": "partial",
   "theorems": [
    "Bliss.File.C41_formats_agree_partial",
    "Bliss.File.C41_dat_written_not_read",
    "Bliss.File.C41_dat_never_read",
    "Bliss.File.C41_unknown_format"
   ],
   "note": "Exact characterisation of the paths and formats that agree; fails for .dat."
  },
  {
   "property": "C42",
   "status": "partial",
   "theorems": [
    "Bliss.H5Shape.C42_three_dims_partial",
    "Bliss.H5Shape.C42_acceptance",
    "Bliss.H5Shape.C42_singleton_extra_rejected",
    "Bliss.H5Shape.C42_large_extra_accepted",
    "Bliss.H5Shape.C42_missing_labels_ub",
    "Bliss.H5Shape.C42_rejection",
    "Bliss.H5Shape.C42_no_labels"
   ],
   "note": "Exact characterisation proved; the test on extra dimensions is inverted, so singleton extras are rejected and larger ones accepted."
  },
  {
   "property": "C43",
   "status": "proved",
   "theorems": [
    "Bliss.Nd.C43_dense_layout"
   ],
   "note": "Every shape with non-negative sizes."
  },
  {
   "property": "C44",
   "status": "partial",
   "theorems": [
    "Bliss.Nd.C44_slice_partial",
    "Bliss.Nd.C44_slice_chain",
    "Bliss.Nd.C44_slice_reads",
    "Bliss.Nd.C44_start_past_end",
    "Bliss.Nd.C44_no_such_dim",
    "Bliss.Nd.C44_step_drops_last",
    "Bliss.Nd.C44_negative_off_by_one",
    "Bliss.Nd.C44_negative_leaves_parent"
   ],
   "note": "Element mapping, containment and chaining proved for non-negative start and positive step; the code violates the property for negative bounds and for steps that do not divide the range (counterexamples proved)."
  },
  {
   "property": "C45",
   "status": "partial",
   "theorems": [
    "Bliss.Nd.C45_fill_slice",
    "Bliss.Nd.C45_assign_slice",
    "Bliss.Nd.C45_mismatch_accepted",
    "Bliss.Nd.C45_row_undefined"
   ],
   "note": "Exactly the selected region changes, for scalar and equal-shape array assignment; a size mismatch is accepted silently (counterexample proved); a row assigned to a two-dimensional slice is undefined for every size (proved)."
  },
  {
   "property": "C46",
   "status": "proved",
   "theorems": [
    "Bliss.Nd.C46_defined_iff",
    "Bliss.Nd.C46_rejects",
    "Bliss.Nd.C46_elementwise_max",
    "Bliss.Nd.C46_commutative",
    "Bliss.Nd.C46_idempotent",
    "Bliss.Nd.C46_associative",
    "Bliss.Nd.C46_empty_dimension"
   ],
   "note": "Associativity for sizes >= 1; fails with an empty dimension (counterexample proved)."
  },
  {
   "property": "C47",
   "status": "partial",
   "theorems": [
    "Bliss.Nd.C47_binary_partial",
    "Bliss.Nd.C47_subtract_multiply_partial",
    "Bliss.Nd.C47_front_alignment_wrong",
    "Bliss.Nd.C47_rank_one_wrong",
    "Bliss.Nd.C47_left_operand_not_broadcast",
    "Bliss.Nd.C47_left_operand_rank",
    "Bliss.Nd.C47_incompatible_rejected",
    "Bliss.Nd.C47_incompatible_same_rank_rejected"
   ],
   "note": "Proved for equal ranks and for lower-rank operands whose front-aligned rewind is right; the remaining cases are violated by the code (counterexamples proved)."
  },
  {
   "property": "C48",
   "status": "proved",
   "theorems": [
    "Bliss.Nd.C48_scalar_op"
   ],
   "note": "Any strides and offsets."
  },
  {
   "property": "C49",
   "status": "partial",
   "theorems": [
    "Bliss.Nd.C49_commutative_ops_partial",
    "Bliss.Nd.C49_exchanged",
    "Bliss.Nd.C49_scalar_first_wrong"
   ],
   "note": "Right for +, *, ==, &; subtraction, division and the orderings are wrong (characterised exactly, with a counterexample)."
  },
  {
   "property": "C50",
   "status": "partial",
   "theorems": [
    "Bliss.Nd.C50_unary_new",
    "Bliss.Nd.C50_unary_into_partial",
    "Bliss.Nd.C50_broadcast_reads_past_end",
    "Bliss.Nd.C50_broadcast_copies_neighbours"
   ],
   "note": "Proved for equal shapes; broadcasting into the output is violated by the code (counterexamples proved)."
  },
  {
   "property": "C51",
   "status": "partial",
   "theorems": [
    "Bliss.Nd.C51_squeeze_partial",
    "Bliss.Nd.C51_squeeze_negative",
    "Bliss.Nd.C51_squeeze_rejects",
    "Bliss.Nd.C51_unsqueeze",
    "Bliss.Nd.C51_round_trip",
    "Bliss.Nd.C51_squeeze_loses_offset",
    "Bliss.Nd.C51_unsqueeze_negative_ub"
   ],
   "note": "squeeze is right only when the squeezed axis has offset 0 (counterexample proved)."
  },
  {
   "property": "C52",
   "status": "partial",
   "theorems": [
    "Bliss.Nd.C52_reshape_from_1d_partial",
    "Bliss.Nd.C52_flatten_dense_partial",
    "Bliss.Nd.C52_reshape_rejects",
    "Bliss.Nd.C52_reshape_wrong"
   ],
   "note": "Right from contiguous 1-D and to 1-D from dense; wrong otherwise (counterexample proved)."
  },
  {
   "property": "C53",
   "status": "partial",
   "theorems": [
    "Bliss.Stat.C53_sum",
    "Bliss.Stat.C53_mean",
    "Bliss.Stat.C53_stddev",
    "Bliss.Stat.C53_mean_stddev",
    "Bliss.Stat.C53_max",
    "Bliss.Stat.C53_count_true",
    "Bliss.Stat.C53_exact_mean",
    "Bliss.Stat.C53_exact_stddev",
    "Bliss.Stat.C53_axis_out_of_range_ub",
    "Bliss.Stat.C53_duplicate_axes"
   ],
   "note": "Proved for every view and every list of distinct in-range axes (also stddev, mean_stddev, max and the element count). A repeated axis counts elements twice and an out-of-range axis is undefined behaviour (proved)."
  },
  {
   "property": "C54",
   "status": "partial",
   "theorems": [
    "Bliss.Stat.C54_masked_mean_partial",
    "Bliss.Stat.C54_masked_stddev_partial",
    "Bliss.Stat.C54_masked_mean_stddev_partial",
    "Bliss.Stat.C54_exact_masked_stddev",
    "Bliss.Stat.C54_all_masked_throws_partial",
    "Bliss.Stat.C54_shape_mismatch_throws",
    "Bliss.Stat.C54_mask_layout_wrong",
    "Bliss.Stat.C54_mask_layout_ub"
   ],
   "note": "The mask is addressed with the strides of the data: proved when both have the same layout, counterexamples (wrong answer, out-of-bounds read) otherwise."
  },
  {
   "property": "C55",
   "status": "partial",
   "theorems": [
    "Bliss.Stat.C55_median_partial",
    "Bliss.Stat.C55_axes_ignored",
    "Bliss.Stat.C55_empty_ub"
   ],
   "note": "Proved for every non-empty array of any layout; the axes argument is ignored and an empty array is undefined behaviour (proved)."
  },
  {
   "property": "C56",
   "status": "partial",
   "theorems": [
    "Bliss.Creators.C56_arange_int_partial",
    "Bliss.Creators.C56_arange_int_count",
    "Bliss.Creators.C56_arange_int_too_long",
    "Bliss.Creators.C56_arange_int_backwards",
    "Bliss.Creators.C56_arange_float_partial",
    "Bliss.Creators.C56_arange_float_short",
    "Bliss.Creators.C56_linspace_float",
    "Bliss.Creators.C56_linspace_exact",
    "Bliss.Creators.C56_linspace_int_partial",
    "Bliss.Creators.C56_linspace_int_decreasing",
    "Bliss.Creators.C56_linspace_int_empty"
   ],
   "note": "arange rounds its length down: one element short for every step that does not divide (proved). linspace holds for floats; decreasing integer linspace is wrong."
  },
  {
   "property": "C57",
   "status": "partial",
   "theorems": [
    "Bliss.Deferred.C57_memoize_at_most_once",
    "Bliss.Deferred.C57_eager_exactly_once",
    "Bliss.Deferred.C57_eager_at_creation",
    "Bliss.Deferred.C57_lazy_once_per_read",
    "Bliss.Deferred.C57_lazy_value",
    "Bliss.Deferred.C57_value",
    "Bliss.Deferred.C57_value_on_device_partial",
    "Bliss.Deferred.C57_wrapped_array",
    "Bliss.Deferred.C57_copy_moves_original",
    "Bliss.Deferred.C57_default_read_ub"
   ],
   "note": "Call counts fully proved over all histories. The value claim fails for an object that asks for no device and shares a cell with a moved copy."
  },
  {
   "property": "C58",
   "status": "partial",
   "theorems": [
    "Bliss.Device.C58_documented_names_partial",
    "Bliss.Device.C58_rejects_partial",
    "Bliss.Device.C58_number_too_large",
    "Bliss.Device.C58_number_required",
    "Bliss.Device.C58_other_cuda_names_misread",
    "Bliss.Device.C58_managed_and_host_unreachable",
    "Bliss.Device.C58_counterexamples"
   ],
   "note": "cudamanaged and cudahost are never recognised and every string starting with cuda is accepted (proved)."
  },
  {
   "property": "C59",
   "status": "partial",
   "theorems": [
    "Bliss.Fft.C59_fft_shift_partial",
    "Bliss.Fft.C59_even_overflows",
    "Bliss.Fft.C59_long_overflows",
    "Bliss.Passband.C59_call_partial"
   ],
   "note": "Odd lengths up to 2^25+1; every even length writes out of bounds (proved)."
  },
  {
   "property": "C60",
   "status": "partial",
   "theorems": [
    "Bliss.Flag.C60_first_read_partial",
    "Bliss.Flag.C60_upper_edge",
    "Bliss.Flag.C60_original_changes",
    "Bliss.Flag.C60_zero_width",
    "Bliss.Flag.C60_reads",
    "Bliss.Flag.C60_second_read",
    "Bliss.Flag.C60_full_width_ub",
    "Bliss.Flag.C60_width",
    "Bliss.Flag.C60_width_exact"
   ],
   "note": "The first read of the mask is right when 0 < count < nchans; every further read of mask() adds the flag again and the original mask is changed (proved), width 0 flags everything and full width is undefined behaviour (proved)."
  },
  {
   "property": "C61",
   "status": "partial",
   "theorems": [
    "Bliss.Flag.C61_magnitude_partial",
    "Bliss.Flag.C61_magnitude_twice",
    "Bliss.Flag.C61_sk_partial",
    "Bliss.Flag.C61_sk_exact",
    "Bliss.Flag.C61_sk_twice"
   ],
   "note": "Flags are added, not or-ed: right when the bit was clear, carries into the next bit when it was set (proved)."
  },
  {
   "property": "C62",
   "status": "partial",
   "theorems": [
    "Bliss.Flag.C62_rounds_partial",
    "Bliss.Flag.C62_float_throws",
    "Bliss.Flag.C62_unflags",
    "Bliss.Flag.C62_bound_undefined",
    "Bliss.Flag.C62_one_side"
   ],
   "note": "Bounded rounds proved; float data always throws, flags can be taken back and two-dimensional data is undefined behaviour (proved)."
  },
  {
   "property": "C63",
   "status": "partial",
   "theorems": [
    "Bliss.Flag.C63_masked_partial",
    "Bliss.Flag.C63_all_flagged",
    "Bliss.Flag.C63_mad_throws",
    "Bliss.Flag.C63_mad_unmasked"
   ],
   "note": "Masked estimate over exactly the unflagged samples when mask and data have the same layout; the error for an unusable mask is proved for every mask; the unmasked MAD estimate has no value (proved)."
  },
  {
   "property": "C64",
   "status": "partial",
   "theorems": [
    "Bliss.Flag.C64_deferred_partial",
    "Bliss.Flag.C64_deferred_target_partial",
    "Bliss.Flag.C64_deferred_cadence_partial",
    "Bliss.Flag.C64_effect_lost",
    "Bliss.Flag.C64_effect_lost_target",
    "Bliss.Flag.C64_failure_kept"
   ],
   "note": "Proved for every deferred operation on scans, targets and cadences; the effect of flag_magnitude(scan) and equalize_passband_filter(scan) is lost (proved for every transform)."
  },
  {
   "property": "C65",
   "status": "partial",
   "theorems": [
    "Bliss.FindHits.C65_single_scan_partial",
    "Bliss.FindHits.C65_only_last_kept",
    "Bliss.FindHits.C65_hits_lost",
    "Bliss.FindHits.C65_stdout_all",
    "Bliss.FindHits.C65_failure_reported_as_success",
    "Bliss.FindHits.C65_unwritable_reported_as_success"
   ],
   "note": "One scan only; with several scans only the last one stays on disk (proved for all lists)."
  },
  {
   "property": "C66",
   "status": "proved",
   "theorems": [
    "Bliss.Comp.C66_clusters_connected"
   ],
   "note": ""
  },
  {
   "property": "C67",
   "status": "partial",
   "theorems": [
    "Bliss.Event.C67_event_found_partial",
    "Bliss.Event.C67_rejected_candidate_takes_hits"
   ],
   "note": "Proved when the OFF scans have no hits; false in general because rejected candidates keep the hits they took (counterexample proved)."
  },
  {
   "property": "C68",
   "status": "partial",
   "theorems": [
    "Bliss.Cadence.C68_slice_partial",
    "Bliss.Cadence.C68_names_lost"
   ],
   "note": "Names are lost (proved)."
  },
  {
   "property": "C69",
   "status": "partial",
   "theorems": [
    "Bliss.Cadence.C69_device_reaches_scans",
    "Bliss.Cadence.C69_bad_device_refused_partial",
    "Bliss.Cadence.C69_refused_device_breaks_scan"
   ],
   "note": "A scan keeps a refused device and becomes unreadable (proved)."
  },
  {
   "property": "C70",
   "status": "partial",
   "theorems": [
    "Bliss.Cadence.C70_failed_write_destroys_file",
    "Bliss.Cadence.C70_missing_hits"
   ],
   "note": "False: every failed write leaves an empty file (proved)."
  },
  {
   "property": "C71",
   "status": "proved",
   "theorems": [
    "Bliss.Cadence.C71_truncation_reported"
   ],
   "note": "The stream framing of the Cap'n Proto library is a hypothesis."
  },
  {
   "property": "C72",
   "status": "partial",
   "theorems": [
    "Bliss.Types.C72_known_names_partial",
    "Bliss.Types.C72_unknown_name_indeterminate"
   ],
   "note": "Unknown names are not rejected (proved for all of them)."
  },
  {
   "property": "C73",
   "status": "partial",
   "theorems": [
    "Bliss.Types.C73_numel_partial",
    "Bliss.Types.C73_large_arrays_miscounted",
    "Bliss.Types.C73_counterexample",
    "Bliss.Types.C73_numel_modulo",
    "Bliss.Types.C73_overflow"
   ],
   "note": "The accumulator is an int: wrong for every array of 2^31 or more elements (proved)."
  },
  {
   "property": "C74",
   "status": "partial",
   "theorems": [
    "Bliss.Stat.C74_sum_partial",
    "Bliss.Stat.C74_sum_unsigned",
    "Bliss.Stat.C74_mean_partial",
    "Bliss.Stat.C74_masked_mean_partial",
    "Bliss.Stat.C74_masked_stddev_partial",
    "Bliss.Stat.C74_masked_mean_of_nothing",
    "Bliss.Stat.C74_mean_of_nothing",
    "Bliss.Stat.C74_mask_shape",
    "Bliss.Stat.C74_masked_stddev_of_nothing",
    "Bliss.Stat.C74_byte_mean_wrong",
    "Bliss.Stat.C74_signed_sum_ub",
    "Bliss.Stat.C74_mean_one_ub",
    "Bliss.Stat.C74_stddev_always_zero",
    "Bliss.Stat.C74_stddev_square_ub",
    "Bliss.Stat.C74_masked_stddev_wrong",
    "Bliss.Stat.C74_stddev_count_ub"
   ],
   "note": "Sum, mean and masked mean are right when the magnitudes add up to no more than the element type holds; otherwise unsigned sums wrap and signed ones are undefined (proved). The mean of one element is undefined. stddev is 0 for all data, or undefined when the square of a signed element does not fit. masked_stddev lies between the integer part of the exact value and a bound that depends on the mean. All deviations are proved as theorems of their own."
  },
  {
   "property": "C75",
   "status": "partial",
   "theorems": [
    "Bliss.Flag.C75_power_is_stddev"
   ],
   "note": "False: noise_power is the standard deviation and noise_amplitude its square root (proved)."
  },
  {
   "property": "C76",
   "status": "partial",
   "theorems": [
    "Bliss.Flag.C76_vector_partial",
    "Bliss.Flag.C76_channel_undefined"
   ],
   "note": "Proved for vectors; for the two-dimensional data of every coarse channel it is undefined behaviour (proved)."
  },
  {
   "property": "C77",
   "status": "proved",
   "theorems": [
    "Bliss.Gpu.C77_schedule_independent",
    "Bliss.Gpu.C77_reported_peaks",
    "Bliss.Gpu.C77_one_per_component",
    "Bliss.Gpu.C77_one_per_group",
    "Bliss.Gpu.C77_reported_extent"
   ],
   "note": "Every interleaving of the shared-memory accesses of all threads; the merge also with out-of-date reads. Not a weak-memory model of CUDA beyond that."
  },
  {
   "property": "C78",
   "status": "partial",
   "theorems": [
    "Bliss.Gpu.C78_kernels_terminate_partial"
   ],
   "note": "For distances of at least 2 and planes whose peaks fit; the merge with up-to-date reads."
  },
  {
   "property": "C79",
   "status": "partial",
   "theorems": [
    "Bliss.Gpu.C79_memory_safe_partial",
    "Bliss.Gpu.C79_overflow",
    "Bliss.Gpu.C79_plateau_overflow",
    "Bliss.Gpu.C79_distance_zero",
    "Bliss.Gpu.C79_distance_one"
   ],
   "note": "Safe when the peaks fit; a flat plane, distance 0 and distance 1 have undefined behaviour (proved)."
  },
  {
   "property": "C80",
   "status": "partial",
   "theorems": [
    "Bliss.Gpu.C80_border_never_reported",
    "Bliss.Gpu.C80_edge_disagreement"
   ],
   "note": "False: the GPU search never reports a peak near the border (proved for every plane; counterexample against the CPU search)."
  },
  {
   "property": "C81",
   "status": "partial",
   "theorems": [
    "Bliss.Gpu.C81_gpu_drift_plane",
    "Bliss.Gpu.C81_gpu_levels",
    "Bliss.Gpu.C81_too_fast_drift_ok",
    "Bliss.Gpu.C81_ignores_strides"
   ],
   "note": "Proved for every schedule for contiguous arrays; the kernel ignores strides and offsets, so other views give wrong sums (proved)."
  },
  {
   "property": "C82",
   "status": "partial",
   "theorems": [
    "Bliss.Gpu.C82_gpu_cpu_relation",
    "Bliss.Gpu.C82_whole_paths_partial",
    "Bliss.Gpu.C82_devices_agree_partial",
    "Bliss.Gpu.C82_even_offsets_agree_partial",
    "Bliss.Gpu.C82_power_offsets_agree_partial",
    "Bliss.Gpu.C82_edge_differs",
    "Bliss.Gpu.C82_rounding_differs"
   ],
   "note": "Exact relation between the two devices proved, given equal offsets; offsets proved equal for an even number of time steps (drift times steps below 2^23/6) and for 2^k+1 time steps. They differ at the band edge and, because the CUDA code rounds the line through float, for other odd numbers of time steps (both proved by example)."
  },
  {
   "property": "C83",
   "status": "partial",
   "theorems": [
    "Bliss.Gpu.C83_reports_maxima",
    "Bliss.Gpu.C83_schedule_independent",
    "Bliss.Gpu.C83_memory_safe_partial",
    "Bliss.Gpu.C83_distance_one",
    "Bliss.Gpu.C83_overflow",
    "Bliss.Gpu.C83_distance_zero",
    "Bliss.Gpu.C83_bump",
    "Bliss.Gpu.C83_plateau_overflow"
   ],
   "note": "What a completed search returns is proved for every schedule; it stays inside its memory exactly when the maxima fit into numel/dist^2 records (overflow otherwise proved), distance 0 divides by zero."
  },
  {
   "property": "C84",
   "status": "partial",
   "theorems": [
    "Bliss.Gpu.C84_binary_partial",
    "Bliss.Gpu.C84_unary_partial",
    "Bliss.Gpu.C84_into_partial",
    "Bliss.Gpu.C84_fill_partial",
    "Bliss.Gpu.C84_front_alignment_right",
    "Bliss.Gpu.C84_left_operand_broadcast",
    "Bliss.Gpu.C84_rank_five",
    "Bliss.Gpu.C84_rank_one_host_ub",
    "Bliss.Gpu.C84_huge_untouched",
    "Bliss.Gpu.C84_index_wraps"
   ],
   "note": "Proved under every schedule up to four dimensions and fewer than 2^31 elements; five dimensions write out of bounds, with more elements the element count wraps and nothing is computed, wider views wrap, and some low-rank operands read a shape vector out of range (proved). Broadcasting is right where the CPU gets it wrong."
  },
  {
   "property": "C85",
   "status": "partial",
   "theorems": [
    "Bliss.Gpu.C85_reproducible_partial",
    "Bliss.Gpu.C85_sum_partial",
    "Bliss.Gpu.C85_mean_partial",
    "Bliss.Gpu.C85_stddev_partial",
    "Bliss.Gpu.C85_max_partial",
    "Bliss.Gpu.C85_masked_reproducible_partial",
    "Bliss.Gpu.C85_masked_partial",
    "Bliss.Gpu.C85_mean_stddev_reproducible_partial",
    "Bliss.Gpu.C85_mean_stddev_partial",
    "Bliss.Gpu.C85_masked_mean_stddev_partial",
    "Bliss.Gpu.C85_masked_mean_stddev_reproducible_partial",
    "Bliss.Gpu.C85_offset_ignored",
    "Bliss.Gpu.C85_slice_sum_wrong",
    "Bliss.Gpu.C85_rank_five",
    "Bliss.Gpu.C85_empty_reduction",
    "Bliss.Gpu.C85_all_masked",
    "Bliss.Gpu.C85_mean_stddev_index"
   ],
   "note": "Proved under every schedule and for every launch size for arrays without an offset, of at most four dimensions and at least one element. Offsets of slices are ignored (proved, with a wrong sum), five dimensions write out of bounds, empty and fully masked reductions return what memory held or divide by zero, and mean_stddev never writes some standard deviations of outputs larger than 1024 (all proved)."
  },
  {
   "property": "C86",
   "status": "partial",
   "theorems": [
    "Bliss.Gpu.C86_count_partial",
    "Bliss.Gpu.C86_offset_ignored",
    "Bliss.Gpu.C86_slice_wrong",
    "Bliss.Gpu.C86_not_positive"
   ],
   "note": "Proved under every schedule of threads and blocks for arrays of fewer than 2^31 elements that begin at the first element of their allocation. Offsets of a slice are ignored, so its count is that of another slice (proved in general and for a concrete slice); an array whose element count wraps to 0 or below counts as 0 (proved)."
  },
  {
   "property": "C87",
   "status": "partial",
   "theorems": [
    "Bliss.Hit.C87_no_strong_line_missed_partial",
    "Bliss.Hit.C87_tone_recovered_partial",
    "Bliss.Hit.C87_tone_recovered_float_partial",
    "Bliss.Hit.C87_hit_rfi_counts_partial",
    "Bliss.Hit.C87_desmeared_tone_displaced",
    "Bliss.Hit.C87_frequency_displaced"
   ],
   "note": "Detection proved for every spectrum and any float order; recovery of start channel, drift and SNR proved in exact arithmetic when no desmearing takes place, and of the frequency when nothing else is above the floor. The same in float arithmetic with any rounding, for up to 512 time steps and a tone at least twice as strong as the rest and varying by at most a factor of two, with the SNR up to 1/1024 of it. With desmearing the tone is reported one channel off, and with power on one side of the tone the reported frequency is that of another channel (both proved)."
  },
  {
   "property": "C88",
   "status": "partial",
   "theorems": [
    "Bliss.Stat.C88_cpu_sum_partial",
    "Bliss.Stat.C88_cpu_mean",
    "Bliss.Stat.C88_cpu_stddev",
    "Bliss.Stat.C88_cpu_masked_partial",
    "Bliss.Stat.C88_cpu_sum_saturates",
    "Bliss.Stat.C88_masked_stddev_negative",
    "Bliss.Gpu.C88_gpu_sum_partial",
    "Bliss.Gpu.C88_gpu_mean_partial",
    "Bliss.Gpu.C88_gpu_variance_partial",
    "Bliss.Gpu.C88_gpu_masked_partial",
    "Bliss.Gpu.C88_compensation_leaks",
    "Bliss.Gpu.C88_gpu_variance_cancels"
   ],
   "note": "Error bounds proved for any rounding with bounded relative error (IEEE float and double are instances; overflow and underflow are not modelled), on the CPU for all shapes and on the device for at most 1024 results. The CPU sum saturates at 2^24 ones, the CPU masked standard deviation of equal values can be the root of a negative number, beyond 1024 results the device lets a compensation leak from one result into another, and no bound relative to the variance itself holds (all proved)."
  },
  {
   "property": "C89",
   "status": "partial",
   "theorems": [
    "Bliss.File.C89_rows_partial",
    "Bliss.File.C89_first_columns_named",
    "Bliss.File.C89_columns_shifted"
   ],
   "note": "Rows and numbers proved for every list of hits and every double rounding with bounded relative error. The header names 11 of the 12 columns, so the coarse channel stands under another name (proved)."
  },
  {
   "property": "C90",
   "status": "partial",
   "theorems": [
    "Bliss.File.C90_read_back_partial",
    "Bliss.File.C90_hits_never_read",
    "Bliss.File.C90_rows_not_recognised",
    "Bliss.File.C90_channel_width_unit"
   ],
   "note": "Start time and sampling time proved. The reader never returns a hit and does not even recognise a written row, and the channel width is read 10^6 times too large (all proved). fmt {} and stod are characterised by the law that the second inverts the first."
  },
  {
   "property": "C91",
   "status": "partial",
   "theorems": [
    "Bliss.File.C91_right_ascension_partial",
    "Bliss.File.C91_declination_partial",
    "Bliss.File.C91_sixty_seconds",
    "Bliss.File.C91_sixty_seconds_double",
    "Bliss.File.C91_header_extra_s"
   ],
   "note": "The parts add up to the coordinate (right ascension not negative); seconds are printed as 60 just below a full minute (proved in general and with IEEE doubles), and the header adds a second s after the right ascension (proved)."
  },
  {
   "property": "C92",
   "status": "partial",
   "theorems": [
    "Bliss.Types.C92_integers_exact",
    "Bliss.Types.C92_integers_wrap",
    "Bliss.Types.C92_integer_division_partial",
    "Bliss.Types.C92_float_rounded_once",
    "Bliss.Types.C92_float_truncated",
    "Bliss.Types.C92_compare_integers_partial",
    "Bliss.Types.C92_compare_floats",
    "Bliss.Types.C92_compare_never_reversed",
    "Bliss.Types.C92_and_partial",
    "Bliss.Types.C92_unsupported",
    "Bliss.Types.C92_bytes_wrap",
    "Bliss.Types.C92_mixed_signs_divide",
    "Bliss.Types.C92_mixed_signs_compare",
    "Bliss.Types.C92_float_loses_integers",
    "Bliss.Types.C92_undefined",
    "Bliss.Types.C92_and_is_bitwise"
   ],
   "note": "Proved for every pair of the four supported element types, with float overflow, NaN and denormals outside the model. A result that does not fit the left type wraps or is undefined, a negative integer next to a uint32 one is taken modulo 2^32, integers above 2^24 next to floats are rounded first, and logical_and works on bits (all proved)."
  },
  {
   "property": "C93",
   "status": "partial",
   "theorems": [
    "Bliss.Gpu.C93_gpu_shift_partial",
    "Bliss.Gpu.C93_edges_never_written",
    "Bliss.Gpu.C93_long_overflows"
   ],
   "note": "Inner bins proved for every transform and every schedule, as long as the index of the zero frequency is exact (lengths up to 2^25). Bin 0 and, at odd lengths, the last bin are never written, and a longer array can be written out of bounds (both proved). The transform itself is a parameter."
  },
  {
   "property": "C94",
   "status": "partial",
   "theorems": [
    "Bliss.Gpu.C94_gpu_fft_partial",
    "Bliss.Gpu.C94_odd_shifted",
    "Bliss.Gpu.C94_odd_wrong",
    "Bliss.Gpu.C94_cpu_not_implemented"
   ],
   "note": "Proved for even lengths on CUDA. At odd lengths the mirror is off by one and the last output is what memory held; on the CPU the function returns uninitialised memory (all proved)."
  },
  {
   "property": "C95",
   "status": "partial",
   "theorems": [
    "Bliss.Passband.C95_fold_partial",
    "Bliss.Passband.C95_never_returns",
    "Bliss.Passband.C95_even_undefined"
   ],
   "note": "Folding and normalization proved for every spectrum in exact arithmetic. On the CPU the function as a whole never returns a value: at even lengths it stores out of bounds, at odd ones it throws or is undefined (proved). The filter design and the transform are parameters."
  },
  {
   "property": "C96",
   "status": "partial",
   "theorems": [
    "Bliss.Passband.C96_equalize_partial",
    "Bliss.Passband.C96_other_length_rejected",
    "Bliss.Passband.C96_square_undefined"
   ],
   "note": "Proved for every division and every channel whose number of fine channels is neither 1 nor the number of spectra; those two cases are undefined (proved). The move between devices is not modelled."
  },
  {
   "property": "C97",
   "status": "partial",
   "theorems": [
    "Bliss.H5Read.C97_channel_partial",
    "Bliss.H5Read.C97_window_partial",
    "Bliss.H5Read.C97_mislabelled_axes",
    "Bliss.H5Read.C97_past_the_end",
    "Bliss.H5Read.C97_reordered_axes",
    "Bliss.H5Read.C97_extra_axis_undefined"
   ],
   "note": "Proved from opening to the sample for every file with the axes time, feed, frequency (also when the labels of time and frequency are exchanged by mistake). Other orders of the axes are accepted but read with time and frequency exchanged or not at all, a fourth axis is undefined, and the channel one past the end opens but cannot be read (all proved). HDF5 itself is assumed to do what readData states."
  },
  {
   "property": "C98",
   "status": "partial",
   "theorems": [
    "Bliss.H5Read.C98_no_mask_partial",
    "Bliss.H5Read.C98_mask_ignored",
    "Bliss.H5Read.C98_default_rejected"
   ],
   "note": "Proved for files without a mask. A mask in the file is ignored, and the default arguments throw (both proved)."
  },
  {
   "property": "C99",
   "status": "partial",
   "theorems": [
    "Bliss.H5Attr.C99_float_as_double_partial",
    "Bliss.H5Attr.C99_int_as_double_partial",
    "Bliss.H5Attr.C99_int64_partial",
    "Bliss.H5Attr.C99_missing",
    "Bliss.H5Attr.C99_int8_garbage",
    "Bliss.H5Attr.C99_big_endian_garbage",
    "Bliss.H5Attr.C99_wide_undefined",
    "Bliss.H5Attr.C99_int64_changes"
   ],
   "note": "Proved for double and int64_t and for attributes of the eight recognised types in the byte order of the machine. Other types are copied byte by byte: 8-bit integers keep seven uninitialised bytes, big-endian numbers are garbage, wider types overflow the variable (all proved)."
  }
 ]
}