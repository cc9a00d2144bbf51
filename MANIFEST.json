{
 "claims": [
  {
   "property": "C01",
   "status": "proved",
   "theorems": [
    "Drone.C01_parseRaw_exact",
    "Drone.C01_parseRaw_unique",
    "Drone.C01_parseRaw_fails_iff"
   ],
   "note": "Splitter equals the declarative IsLines/Visible/Documents specification, both directions; failure only through a header."
  },
  {
   "property": "C02",
   "status": "proved",
   "theorems": [
    "Drone.C02_reemit",
    "Drone.C02_condition_needed"
   ],
   "note": "Re-emission theorem under the stated condition; a witness shows that the condition is needed."
  },
  {
   "property": "C03",
   "status": "proved",
   "theorems": [
    "Drone.C03_parse_all_or_nothing",
    "Drone.C03_one_bad_document"
   ],
   "note": "Success characterised document by document; one bad document fails the call."
  },
  {
   "property": "C04",
   "status": "proved",
   "theorems": [
    "Drone.C04_yaml_kind",
    "Drone.C04_json_kind",
    "Drone.C04_same_choice"
   ],
   "note": "Kind table for YAML and JSON."
  },
  {
   "property": "C05",
   "status": "proved",
   "theorems": [
    "Drone.C05_signed_verifies",
    "Drone.C05_double_cr_fails"
   ],
   "note": "Assumes the YAML library reads the written signature document back (ReadsSignature) and a 32 byte MAC. The condition on double carriage returns is necessary (C05_double_cr_fails)."
  },
  {
   "property": "C06",
   "status": "proved",
   "theorems": [
    "Drone.C06_sign_idempotent",
    "Drone.C06_one_signature_last"
   ],
   "note": "Idempotence and the shape of the signed file, for files without double carriage returns."
  },
  {
   "property": "C07",
   "status": "proved",
   "theorems": [
    "Drone.C07_signature_docs_irrelevant",
    "Drone.C07_write_then_sign"
   ],
   "note": "Sign depends only on the non-signature documents; writing a signature leaves Sign unchanged."
  },
  {
   "property": "C08",
   "status": "proved",
   "theorems": [
    "Drone.C08_verify_iff"
   ],
   "note": "Exact characterisation of Verify, for every MAC."
  },
  {
   "property": "C09",
   "status": "partial",
   "theorems": [
    "Drone.C09_same_mac",
    "Drone.C09_content_fixed_partial",
    "Drone.C09_single_document",
    "Drone.C09_boundaries_not_signed"
   ],
   "note": "C09_same_mac: for every MAC the contents of two verified files with the same signature value have the same MAC. So the concatenated content is fixed unless the two contents are a collision, and the document itself when there is one per file. Missing: document boundaries; C09_boundaries_not_signed refutes them for every MAC."
  },
  {
   "property": "C10",
   "status": "proved",
   "theorems": [
    "Drone.C10_short_key",
    "Drone.C10_key_error_iff"
   ],
   "note": ""
  },
  {
   "property": "C11",
   "status": "proved",
   "theorems": [
    "Drone.C11_sign_write",
    "Drone.C11_fail_together",
    "Drone.C11_write_error"
   ],
   "note": "Including what WriteTo hands out when the file does not parse."
  },
  {
   "property": "C12",
   "status": "proved",
   "theorems": [
    "Drone.C12_lint_iff"
   ],
   "note": "Acceptance characterised by an independent rule set, including null entries."
  },
  {
   "property": "C13",
   "status": "proved",
   "theorems": [
    "Drone.C13_step_graph"
   ],
   "note": ""
  },
  {
   "property": "C14",
   "status": "proved",
   "theorems": [
    "Drone.C14_names"
   ],
   "note": ""
  },
  {
   "property": "C15",
   "status": "proved",
   "theorems": [
    "Drone.C15_manifest_iff",
    "Drone.C15_pipeline_graph"
   ],
   "note": ""
  },
  {
   "property": "C16",
   "status": "proved",
   "theorems": [
    "Drone.C16_trust_monotone"
   ],
   "note": ""
  },
  {
   "property": "C17",
   "status": "proved",
   "theorems": [
    "Drone.C17_other_resources",
    "Drone.C17_no_panic"
   ],
   "note": ""
  },
  {
   "property": "C18",
   "status": "proved",
   "theorems": [
    "Drone.C18_match_iff",
    "Drone.C18_includes_excludes"
   ],
   "note": "For every glob matcher."
  },
  {
   "property": "C19",
   "status": "proved",
   "theorems": [
    "Drone.C19_skip_iff",
    "Drone.C19_no_conditions",
    "Drone.C19_irrelevant"
   ],
   "note": ""
  },
  {
   "property": "C20",
   "status": "proved",
   "theorems": [
    "Drone.C20_run_policy",
    "Drone.C20_default"
   ],
   "note": ""
  },
  {
   "property": "C21",
   "status": "proved",
   "theorems": [
    "Drone.C21_build",
    "Drone.C21_push",
    "Drone.C21_port",
    "Drone.C21_variable",
    "Drone.C21_condition",
    "Drone.C21_condition_list",
    "Drone.C21_string_list",
    "Drone.C21_variable_roundtrip",
    "Drone.C21_parameter_roundtrip",
    "Drone.C21_parameter_secret_map"
   ],
   "note": "Exceptions of the round trip are exact: a variable with value and secret keeps the secret only, a literal map with key from_secret comes back as a secret (C21_parameter_secret_map). Conditions: include given as a scalar is not a documented form, see C77."
  },
  {
   "property": "C22",
   "status": "proved",
   "theorems": [
    "Drone.C22_steps_in_order",
    "Drone.C22_metadata",
    "Drone.C22_attributes"
   ],
   "note": "For callbacks provided by the library (Compiler.Std) and no transform."
  },
  {
   "property": "C23",
   "status": "proved",
   "theorems": [
    "Drone.C23_detached"
   ],
   "note": ""
  },
  {
   "property": "C24",
   "status": "proved",
   "theorems": [
    "Drone.C24_run_policy"
   ],
   "note": ""
  },
  {
   "property": "C25",
   "status": "proved",
   "theorems": [
    "Drone.C25_dependencies",
    "Drone.C25_waits_for_clone"
   ],
   "note": ""
  },
  {
   "property": "C26",
   "status": "proved",
   "theorems": [
    "Drone.C26_acyclic",
    "Drone.C26_service_cycle"
   ],
   "note": "C26_service_cycle shows why services must not declare dependencies."
  },
  {
   "property": "C27",
   "status": "proved",
   "theorems": [
    "Drone.C27_privileged",
    "Drone.C27_untrusted"
   ],
   "note": ""
  },
  {
   "property": "C28",
   "status": "partial",
   "theorems": [
    "Drone.C28_socket_mount",
    "Drone.C28_socket_volume",
    "Drone.C28_socket_image_partial",
    "Drone.C28_socket_hijack",
    "Drone.C28_socket_image_iff"
   ],
   "note": "Mount and volume clauses proved in full. The image clause is false in general: a build step whose section names the image drone/docker redirects every build step (C28_socket_hijack); proved when no build section names drone/docker. C28_socket_image_iff: that condition is exact."
  },
  {
   "property": "C29",
   "status": "proved",
   "theorems": [
    "Drone.C29_untrusted_isolated"
   ],
   "note": ""
  },
  {
   "property": "C30",
   "status": "proved",
   "theorems": [
    "Drone.C30_secret_references",
    "Drone.C30_secret_iff",
    "Drone.C30_provenance",
    "Drone.C30_secret_not_plain"
   ],
   "note": ""
  },
  {
   "property": "C31",
   "status": "proved",
   "theorems": [
    "Drone.C31_workspace_variables"
   ],
   "note": ""
  },
  {
   "property": "C32",
   "status": "partial",
   "theorems": [
    "Drone.C32_uids",
    "Drone.C32_uids_distinct",
    "Drone.C32_namespace_partial",
    "Drone.C32_host_volume_namespace"
   ],
   "note": "UID distinctness proved in full. The namespace clause is proved for everything except the volume of the host workspace callback, which the code leaves without a namespace (C32_host_volume_namespace)."
  },
  {
   "property": "C33",
   "status": "partial",
   "theorems": [
    "Drone.C33_working_dir_partial",
    "Drone.C33_service_workdir_lost"
   ],
   "note": "Proved as stated for clone and pipeline steps; a service keeps its working directory only if it is also declared detached, because the rule reads the source flag (C33_service_workdir_lost)."
  },
  {
   "property": "C34",
   "status": "partial",
   "theorems": [
    "Drone.C34_map_order_partial",
    "Drone.C34_setting_collision",
    "Drone.C34_collision"
   ],
   "note": "Proved unless two plain settings of a container give different texts to the same variable. In that case the claim is false for that pipeline (C34_collision; C34_setting_collision is a case), so the condition is exact for containers that are not build steps."
  },
  {
   "property": "C35",
   "status": "proved",
   "theorems": [
    "Drone.C35_redirect_single",
    "Drone.C35_redirect_many",
    "Drone.C35_ambiguous_builds"
   ],
   "note": "C35_redirect_many covers several build steps with different images; C35_ambiguous_builds shows that two build steps for the same image are resolved by map order."
  },
  {
   "property": "C36",
   "status": "partial",
   "theorems": [
    "Drone.C36_mount",
    "Drone.C36_credentials_partial",
    "Drone.C36_name_clash",
    "Drone.C36_mounts_iff",
    "Drone.C36_files_exact",
    "Drone.C36_credentials_iff"
   ],
   "note": "The mount clause holds for every pipeline. The file clause is proved unless a container with commands is named .git-credentials, which the linter accepts and which makes that container mount the credentials (C36_name_clash). C36_mounts_iff and C36_files_exact say exactly which containers see which file of that name, for every pipeline."
  },
  {
   "property": "C37",
   "status": "proved",
   "theorems": [
    "Drone.C37_posix_script",
    "Drone.C37_windows_script",
    "Drone.C37_base64_roundtrip",
    "Drone.C37_windows_step"
   ],
   "note": ""
  },
  {
   "property": "C38",
   "status": "partial",
   "theorems": [
    "Drone.C38_trace_word_partial",
    "Drone.C38_trace_iff",
    "Drone.C38_backquote"
   ],
   "note": "Proved for commands without a backquote; C38_trace_iff shows that with a backquote the claim is false, C38_backquote is a case."
  },
  {
   "property": "C39",
   "status": "partial",
   "theorems": [
    "Drone.C39_compile_iff",
    "Drone.C39_untrusted",
    "Drone.C39_trusted_partial",
    "Drone.C39_null_port"
   ],
   "note": "Proved in full for pipelines accepted as untrusted; C39_compile_iff is the exact condition. For trusted pipelines null ports have to be excluded (C39_null_port)."
  },
  {
   "property": "C40",
   "status": "proved",
   "theorems": [
    "Drone.C40_files",
    "Drone.C40_mounts_resolve",
    "Drone.C40_own_script"
   ],
   "note": "C40_own_script adds, for linted pipelines, that the mounted file is the container's own script."
  },
  {
   "property": "C41",
   "status": "proved",
   "theorems": [
    "Drone.C41_workspace",
    "Drone.C41_host_workspace"
   ],
   "note": ""
  },
  {
   "property": "C42",
   "status": "proved",
   "theorems": [
    "Drone.C42_workspace_path",
    "Drone.C42_windows"
   ],
   "note": ""
  },
  {
   "property": "C43",
   "status": "proved",
   "theorems": [
    "Drone.C43_expand_idempotent",
    "Drone.C43_matchTag_equivalence",
    "Drone.C43_match_equivalence",
    "Drone.C43_match_list",
    "Drone.C43_match_expand",
    "Drone.C43_trim_ignores_tag",
    "Drone.C43_invalid_unchanged",
    "Drone.C43_hub_host_confusion"
   ],
   "note": "The docker reference package is modelled from its published source; see also the finding C43_hub_host_confusion."
  },
  {
   "property": "C44",
   "status": "proved",
   "theorems": [
    "Drone.C44_dind",
    "Drone.C44_dind_tag"
   ],
   "note": ""
  },
  {
   "property": "C45",
   "status": "proved",
   "theorems": [
    "Drone.C45_string",
    "Drone.C45_chunking",
    "Drone.C45_shape",
    "Drone.C45_uniform",
    "Drone.C45_prompt"
   ],
   "note": ""
  },
  {
   "property": "C46",
   "status": "proved",
   "theorems": [
    "Drone.C46_include",
    "Drone.C46_exclude",
    "Drone.C46_resumeAt",
    "Drone.C46_empty",
    "Drone.C46_resumeAt_unknown"
   ],
   "note": "filters characterised step by step; ResumeAt with an unknown name disables everything but clone (C46_resumeAt_unknown)"
  },
  {
   "property": "C47",
   "status": "proved",
   "theorems": [
    "Drone.C47_environ",
    "Drone.C47_order",
    "Drone.C47_netrc",
    "Drone.C47_netrc_off",
    "Drone.C47_proxy"
   ],
   "note": "stated by map lookups, for every iteration order; a nil Envs map is not modelled"
  },
  {
   "property": "C48",
   "status": "partial",
   "theorems": [
    "Drone.C48_labels_partial",
    "Drone.C48_labels_panic",
    "Drone.C48_host_workspace_panic",
    "Drone.C48_compiled_labelled",
    "Drone.C48_limits",
    "Drone.C48_limits_zero",
    "Drone.C48_networks",
    "Drone.C48_auths",
    "Drone.C48_limits_clobber"
   ],
   "note": "labels: proved whenever all label maps exist; the full claim is false because WithLables panics on the volume of CreateHostWorkspace (C48_labels_panic is the exact condition); limits, networks, credentials complete"
  },
  {
   "property": "C49",
   "status": "proved",
   "theorems": [
    "Drone.C49_secretFunc",
    "Drone.C49_secrets",
    "Drone.C49_excluded"
   ],
   "note": "the callback may depend on its earlier requests"
  },
  {
   "property": "C50",
   "status": "proved",
   "theorems": [
    "Drone.C50_volumes",
    "Drone.C50_volumeSlice"
   ],
   "note": ""
  },
  {
   "property": "C51",
   "status": "proved",
   "theorems": [
    "Drone.C51_nil",
    "Drone.C51_cons",
    "Drone.C51_flatten"
   ],
   "note": ""
  },
  {
   "property": "C52",
   "status": "proved",
   "theorems": [
    "Drone.C52_frame",
    "Drone.C52_empty",
    "Drone.C52_cr_needed"
   ],
   "note": "The two conditions in the statement are needed: C52_empty, C52_cr_needed."
  },
  {
   "property": "C53",
   "status": "proved",
   "theorems": [
    "Drone.C53_order"
   ],
   "note": ""
  },
  {
   "property": "C54",
   "status": "proved",
   "theorems": [
    "Drone.C54_value",
    "Drone.C54_tag",
    "Drone.C54_container",
    "Drone.C54_resource"
   ],
   "note": "The printers of containers and resources are only run with zero mode off, and leave it off."
  },
  {
   "property": "C55",
   "status": "proved",
   "theorems": [
    "Drone.C55_quoted",
    "Drone.C55_reader_unique",
    "Drone.C55_plain_iff",
    "Drone.C55_plain"
   ],
   "note": "C55_plain_iff says exactly which strings are written plain; C55_reader_unique that the quoted scalar has no other reading."
  },
  {
   "property": "C56",
   "status": "proved",
   "theorems": [
    "Drone.C56_chunks"
   ],
   "note": ""
  },
  {
   "property": "C57",
   "status": "proved",
   "theorems": [
    "Drone.C57_match",
    "Drone.C57_unchanged"
   ],
   "note": "The regular expression is specified by lines (PipelineLine). Decoders and the libraries are parameters."
  },
  {
   "property": "C58",
   "status": "proved",
   "theorems": [
    "Drone.C58_printed",
    "Drone.C58_idempotent"
   ],
   "note": "For every library, environment and manifest: no printed manifest has a pipeline: line."
  },
  {
   "property": "C59",
   "status": "proved",
   "theorems": [
    "Drone.C59_product",
    "Drone.C59_combination",
    "Drone.C59_once",
    "Drone.C59_order",
    "Drone.C59_bound",
    "Drone.C59_cut",
    "Drone.C59_empty_list",
    "Drone.C59_overflow"
   ],
   "note": "C59_cut is the exact result short of overflow; C59_empty_list and C59_overflow show why the hypotheses are there."
  },
  {
   "property": "C60",
   "status": "partial",
   "theorems": [
    "Drone.C60_volumes",
    "Drone.C60_mounts_partial",
    "Drone.C60_clone_volume"
   ],
   "note": "Volume clauses proved in full; mounts proved for pipeline steps and services. Missing, because false (C60_clone_volume): mounts of clone containers. Files without a matrix; for files with one see C109_axis_mounts and C111."
  },
  {
   "property": "C61",
   "status": "partial",
   "theorems": [
    "Drone.C61_names_partial",
    "Drone.C61_clash",
    "Drone.C61_names_iff"
   ],
   "note": "Proved unless a given name equals the suffixed name of another step; otherwise false (C61_clash). Files without a matrix; for files with one C109_axis is the exact condition. C61_names_iff is the exact condition."
  },
  {
   "property": "C62",
   "status": "proved",
   "theorems": [
    "Drone.C62_push",
    "Drone.C62_pull",
    "Drone.C62_tag",
    "Drone.C62_other"
   ],
   "note": "The pattern matcher is any one with two laws (GlobLaws; exGlob_laws shows they can be met). Files without a matrix."
  },
  {
   "property": "C63",
   "status": "proved",
   "theorems": [
    "Drone.C63_stages",
    "Drone.C63_no_stages",
    "Drone.C63_panic",
    "Drone.C63_limits"
   ],
   "note": "For stages with names. C63_no_stages: every job its own pipeline; C63_panic: exact panic condition; C63_limits: unlisted stages lose their jobs, an unnamed stage breaks the chain."
  },
  {
   "property": "C64",
   "status": "proved",
   "theorems": [
    "Drone.C64_trimPrefix",
    "Drone.C64_selection",
    "Drone.C64_deterministic",
    "Drone.C64_steps",
    "Drone.C64_services",
    "Drone.C64_limits"
   ],
   "note": "Selection, images, names and services for every iteration order. C64_limits: a given name may equal a generated one, and tag patterns are tried on branch refs."
  },
  {
   "property": "C65",
   "status": "partial",
   "theorems": [
    "Drone.C65_failure",
    "Drone.C65_format",
    "Drone.C65_sign",
    "Drone.C65_convert_partial",
    "Drone.C65_convert_save_ignored",
    "Drone.C65_readers"
   ],
   "note": "fmt and sign as stated; every failing command leaves all files and outputs untouched. convert: the claim is false, C65_convert_save_ignored proves that convert --save never writes (line 117 of main.go tests fmt's flag); C65_convert_partial is what holds."
  },
  {
   "property": "C66",
   "status": "proved",
   "theorems": [
    "Drone.C66_requested",
    "Drone.C66_missing",
    "Drone.C66_clone"
   ],
   "note": "Selection is an iff against a separate specification; the clone step via the names of the printed steps."
  },
  {
   "property": "C67",
   "status": "partial",
   "theorems": [
    "Drone.C67_trace_string_partial",
    "Drone.C67_quote",
    "Drone.C67_trace_iff",
    "Drone.C67_ends_iff"
   ],
   "note": "Proved for commands without single quotes (including the typographic ones PowerShell accepts); with one the claim is false (C67_quote). The condition is exact (C67_trace_iff); the literal ends in the right place iff the quotes come in pairs (C67_ends_iff)."
  },
  {
   "property": "C68",
   "status": "partial",
   "theorems": [
    "Drone.C68_plain_partial",
    "Drone.C68_exceptions",
    "Drone.C68_types_lost",
    "Drone.C68_plain_iff"
   ],
   "note": "Proved unless the string starts with & or !, is a lone - or ?, or has a character YAML does not accept as it is; these exceptions are real (C68_exceptions). The type is not kept: C68_types_lost. The list of exceptions is exact (C68_plain_iff)."
  },
  {
   "property": "C69",
   "status": "proved",
   "theorems": [
    "Drone.C69_panic"
   ],
   "note": ""
  },
  {
   "property": "C70",
   "status": "partial",
   "theorems": [
    "Drone.C70_copies",
    "Drone.C70_filter_partial",
    "Drone.C70_or"
   ],
   "note": "C70_copies is the exact result. The claim is proved for conditions with at most one entry; with more it is false (C70_or): one satisfied entry is enough and two give two copies."
  },
  {
   "property": "C71",
   "status": "proved",
   "theorems": [
    "Drone.C71_containers"
   ],
   "note": "Decoding the file is a parameter."
  },
  {
   "property": "C72",
   "status": "proved",
   "theorems": [
    "Drone.C72_plain",
    "Drone.C72_list",
    "Drone.C72_product",
    "Drone.C72_lost",
    "Drone.C72_reported",
    "Drone.C72_reported_axis"
   ],
   "note": "C72_lost: a matrix that is there but empty loses the pipeline."
  },
  {
   "property": "C73",
   "status": "proved",
   "theorems": [
    "Drone.C73_order",
    "Drone.C73_matrix_order"
   ],
   "note": "With a matrix it is false: C73_matrix_order."
  },
  {
   "property": "C74",
   "status": "proved",
   "theorems": [
    "Drone.C74_flags_applied",
    "Drone.C74_panics_iff"
   ],
   "note": "Hypotheses: flag maps have distinct keys and iteration orders are permutations (true of Go maps)."
  },
  {
   "property": "C75",
   "status": "proved",
   "theorems": [
    "Drone.C75_sign_verify",
    "Drone.C75_verify_iff"
   ],
   "note": "Under the hypotheses of C05 (YAML library reads the signature document, 32 byte MAC, no line ending in two carriage returns, key of at least 32 bytes) and a writable file."
  },
  {
   "property": "C76",
   "status": "proved",
   "theorems": [
    "Drone.C76_lint_iff",
    "Drone.C76_manifest_not_checked"
   ],
   "note": "C76_manifest_not_checked: checks across resources (duplicate pipeline names, unknown dependencies) are not run by the command."
  },
  {
   "property": "C77",
   "status": "partial",
   "theorems": [
    "Drone.C77_condition_partial",
    "Drone.C77_include_ignored",
    "Drone.C77_parts_ignored",
    "Drone.C77_read_iff"
   ],
   "note": "Documented forms proved. The last clause is false: include or exclude given as a scalar is silently dropped and the condition matches everything (C77_include_ignored, C77_parts_ignored). C77_read_iff is the exact condition for every node."
  },
  {
   "property": "C78",
   "status": "proved",
   "theorems": [
    "Drone.C78_container",
    "Drone.C78_pipeline",
    "Drone.C78_container_refused",
    "Drone.C78_pipeline_refused",
    "Drone.C78_key_order",
    "Drone.treeLib_typed"
   ],
   "note": "The tree decoder of the YAML library is modelled (Model/Node.lean) and trusted."
  },
  {
   "property": "C79",
   "status": "proved",
   "theorems": [
    "Drone.C79_volume",
    "Drone.C79_volume_limits",
    "Drone.C79_environment",
    "Drone.C79_secrets"
   ],
   "note": "C79_volume_limits: a path without colon silently becomes empty, a drive letter is taken for the source."
  },
  {
   "property": "C80",
   "status": "proved",
   "theorems": [
    "Drone.C80_constraint",
    "Drone.C80_meant",
    "Drone.C80_nested"
   ],
   "note": "C80_meant for every node without lists inside lists; C80_nested: such a list is lost as a whole."
  },
  {
   "property": "C81",
   "status": "partial",
   "theorems": [
    "Drone.C81_image_partial",
    "Drone.C81_allow_failure_ignored"
   ],
   "note": "Image clause proved. The allow_failure clause is false: the field has no YAML tag, so the key is allowfailure and allow_failure is ignored (C81_allow_failure_ignored)."
  },
  {
   "property": "C82",
   "status": "partial",
   "theorems": [
    "Drone.C82_environment_partial",
    "Drone.C82_spelling_lost",
    "Drone.C82_current_format"
   ],
   "note": "Proved for strings (C82_environment_partial with legacyText). False for numbers and Booleans: they are decoded and written anew, 1.10 and 1.1 become the same (C82_spelling_lost)."
  },
  {
   "property": "C83",
   "status": "partial",
   "theorems": [
    "Drone.C83_stage_partial",
    "Drone.C83_parallel_panics",
    "Drone.C83_panics_iff",
    "Drone.C83_entry_iff"
   ],
   "note": "Order of steps proved. The second clause is false: an entry without step, such as parallel, decodes to a nil step and the converter panics (C83_parallel_panics). C83_panics_iff is the exact condition for a panic, C83_entry_iff says which entries cause it."
  },
  {
   "property": "C84",
   "status": "partial",
   "theorems": [
    "Drone.C84_read_back_partial",
    "Drone.C84_faithful_partial",
    "Drone.C85_not_idempotent",
    "Drone.C84_string_iff"
   ],
   "note": "For every parser that agrees with the grammar of Spec/Block.lean and every manifest whose texts survive (ResourceOk), what is read is keptManifest of what was printed, and the manifest itself if keptManifest m = m. The unrestricted claim is false: C85_not_idempotent (a variable set to the empty text is lost), C68_exceptions, C68_types_lost. Missing: manifests with texts outside ResourceOk, documents whose lines reach 64 KiB. For a single string the condition (Readable) is exact: C84_string_iff."
  },
  {
   "property": "C85",
   "status": "partial",
   "theorems": [
    "Drone.C85_idempotent_partial",
    "Drone.C85_second_partial",
    "Drone.C85_not_idempotent"
   ],
   "note": "Proved where C84 says nothing is lost; C85_second_partial says what the second formatting prints otherwise. The unrestricted claim is false (C85_not_idempotent): an empty variable leaves a bare environment: line that the second formatting drops."
  },
  {
   "property": "C86",
   "status": "partial",
   "theorems": [
    "Drone.C86_failure",
    "Drone.C86_pull",
    "Drone.C86_resources_partial",
    "Drone.C86_cpu_error",
    "Drone.C86_cpu_exact",
    "Drone.C86_cpu_loss"
   ],
   "note": "Failure and pull clauses proved in full; memory, presence of limits and requests proved. Millicores: proved up to less than one millicore plus the floating point error (C86_cpu_error) and exactly for numbers given exactly (C86_cpu_exact); the exact claim is false, cpu: 2.01 becomes 2009 (C86_cpu_loss)."
  },
  {
   "property": "C87",
   "status": "proved",
   "theorems": [
    "Drone.C87_environment",
    "Drone.C87_settings"
   ],
   "note": "Scalars: strings, Booleans, integers; floating point numbers, lists and maps go through library encoders that are parameters."
  },
  {
   "property": "C88",
   "status": "proved",
   "theorems": [
    "Drone.C88_build",
    "Drone.C88_clone"
   ],
   "note": "The alias of the image is C35."
  },
  {
   "property": "C89",
   "status": "proved",
   "theorems": [
    "Drone.C89_transform"
   ],
   "note": "For every compiler, also with other workspace callbacks."
  },
  {
   "property": "C90",
   "status": "proved",
   "theorems": [
    "Drone.C90_expand",
    "Drone.C90_trim",
    "Drone.C90_other",
    "Drone.C90_unique",
    "Drone.C90_hostname",
    "Drone.C90_hostname_lost",
    "Drone.C90_hostname_other"
   ],
   "note": "Grammar in Spec/ImageName.lean; expansion, short form and host match for every valid name, nothing else changed, parts determined by the text. The reference package is modelled from its published source; digest.Parse is a parameter with laws."
  },
  {
   "property": "C91",
   "status": "proved",
   "theorems": [
    "Drone.C91_match",
    "Drone.C91_condition",
    "Drone.C91_below",
    "Drone.C91_star",
    "Drone.C91_literal",
    "Drone.C91_all",
    "Drone.C91_trailing",
    "Drone.C91_laws",
    "Drone.C91_push"
   ],
   "note": "Model of doublestar.Match v1.1.1 from its published source. The grammar leaves out two adjacent stars inside a component, alternatives that stand for the empty text (which the matcher gets wrong at the end of a name, shown by example) and backslashes in names."
  },
  {
   "property": "C92",
   "status": "proved",
   "theorems": [
    "Drone.C92_accepted",
    "Drone.C92_whole",
    "Drone.C92_exact",
    "Drone.C92_multiple",
    "Drone.C92_error",
    "Drone.C92_settles",
    "Drone.C92_changed",
    "Drone.C92_drift",
    "Drone.C92_unreadable",
    "Drone.C92_survives",
    "Drone.C92_negative",
    "Drone.C92_error_large",
    "Drone.C92_readable_iff",
    "Drone.C92_second_unreadable",
    "Drone.C92_fits",
    "Drone.C92_text"
   ],
   "note": "go-units v0.3.3 is modelled from its published source; all sizes a 64 bit integer can hold (C92_readable_iff); C92_error is the sharper bound below 2^53 bytes."
  },
  {
   "property": "C93",
   "status": "proved",
   "theorems": [
    "Drone.C93_domain",
    "Drone.C93_map",
    "Drone.C93_nested",
    "Drone.C93_injective",
    "Drone.C93_refused",
    "Drone.C93_order",
    "Drone.C93_scalars",
    "Drone.C93_split",
    "Drone.C93_ambiguous",
    "Drone.C93_clash",
    "Drone.C93_compiled"
   ],
   "note": "for every value whose map keys are scalars with different texts (C93_domain: exactly those have a JSON value); the hypothesis on floats is that their texts are JSON numbers. Marshalling to YAML and reading back is taken as identity."
  },
  {
   "property": "C94",
   "status": "partial",
   "theorems": [
    "Drone.C94_lint_order",
    "Drone.C94_lint_kept",
    "Drone.C94_manifest",
    "Drone.C94_compile",
    "Drone.C94_fmt_lint_partial",
    "Drone.C94_fmt_compile_partial",
    "Drone.C94_empty_variable",
    "Drone.C94_refused_accepted"
   ],
   "note": "Proved for files whose resources survive formatting (Formattable) and whose pipelines show all their effects (Effective): lint and compile give the same before and after. Missing: strings outside the readable set of C84, which do not come back (C84_string_iff). The claim without these conditions is false (C94_empty_variable); the converse for the linter is false (C94_refused_accepted)."
  },
  {
   "property": "C95",
   "status": "partial",
   "theorems": [
    "Drone.C95_settles_partial",
    "Drone.C95_sharp"
   ],
   "note": "Proved for manifests whose resources survive formatting (ResourceOk, lines below 64 KiB); the number four is sharp. Missing: strings outside the readable set of C84, which do not come back (C84_string_iff)."
  },
  {
   "property": "C96",
   "status": "partial",
   "theorems": [
    "Drone.C96_sign_formatted_partial",
    "Drone.C96_format_signed_partial",
    "Drone.C96_settled_partial",
    "Drone.C96_command_line_partial",
    "Drone.C96_format_breaks"
   ],
   "note": "Proved for manifests whose resources survive formatting (ResourceOk, as in C84) and for printed texts without a line of 64 KiB; formatting before signing is needed, C96_format_breaks"
  },
  {
   "property": "C97",
   "status": "partial",
   "theorems": [
    "Drone.C97_encode_partial",
    "Drone.C97_parsed_partial",
    "Drone.C97_same_iff",
    "Drone.C97_format_panics_iff",
    "Drone.C97_unformattable",
    "Drone.C97_scalars",
    "Drone.C97_written",
    "Drone.C97_library"
   ],
   "note": "The natural claim (encode then parse is the identity) is false of the code; C97_same_iff gives the exact condition and C97_encode_partial what comes back otherwise. Needed: settings without float keys and without literals that look like a reference to a secret (map with from_secret), and a YAML library that reads back the trees it writes (Written). C97_library and C97_written: there is such a library, for all manifests with keys of at most 1024 characters, settings without lists or maps as keys, and lines under 64 KiB. C97_scalars: Booleans and integers have the texts that are read as them. Integers have 64 bits as in Go; that parsed sizes do is assumed of the library and proved of its model (C92_fits)."
  },
  {
   "property": "C98",
   "status": "partial",
   "theorems": [
    "Drone.C98_references",
    "Drone.C98_axis",
    "Drone.C98_good",
    "Drone.C98_text_partial",
    "Drone.C98_manifest_partial",
    "Drone.C98_panics",
    "Drone.C98_empty_variable",
    "Drone.C98_number",
    "Drone.C98_references_quoted"
   ],
   "note": "C98_text_partial: proved for every emitter whose text is read as the tree and every axis whose names are identifiers, whose values could stand alone as plain scalars without quotes, backslashes or dollar signs, when no text becomes null, no text in a setting becomes a number or Boolean, no reference is in a key, and no printable character is written by its code. C98_number shows that texts in settings can become numbers. C98_manifest_partial is the same with the weaker, but less concrete, hypothesis ReadsFilled. Values with line feeds are inserted in quotes (C98_references_quoted). Missing: values that change the structure of the YAML, and empty values."
  },
  {
   "property": "C99",
   "status": "proved",
   "theorems": [
    "Drone.C99_refused",
    "Drone.C99_json",
    "Drone.C99_same_iff",
    "Drone.C99_parsed",
    "Drone.C99_twice",
    "Drone.C99_kind",
    "Drone.C99_number",
    "Drone.C99_number_lost",
    "Drone.C99_variable_iff"
   ],
   "note": "Hypotheses: map keys distinct, integers of 64 bits and cpu numbers doubles (all hold of Go values; for parsed files only the last is assumed, and that sizes read from texts have 64 bits, C92_fits), resources have the kind of their type. Maps in settings are map[interface{}]interface{} as the YAML decoder makes them."
  },
  {
   "property": "C100",
   "status": "partial",
   "theorems": [
    "Drone.C100_gitlab_partial",
    "Drone.C100_gitlab_no_stages_partial",
    "Drone.C100_bitbucket_partial"
   ],
   "note": "Missing: strings outside Readable, which do not come back (C84_string_iff), and lines of 64 KiB or more (C110)."
  },
  {
   "property": "C101",
   "status": "proved",
   "theorems": [
    "Drone.C101_repository",
    "Drone.C101_no_host",
    "Drone.C101_directory",
    "Drone.C101_no_link",
    "Drone.C101_kubernetes",
    "Drone.C101_kubernetes_compiled",
    "Drone.C101_dot"
   ],
   "note": "Includes what differs for Kubernetes."
  },
  {
   "property": "C102",
   "status": "partial",
   "theorems": [
    "Drone.C102_legacy_partial",
    "Drone.C102_empty_variable"
   ],
   "note": "Proved for files whose strings are Readable (strings that come back from their printed form: C84_string_iff), whose lines are under 64 KiB and that have no matrix (with one: C111; longer lines: C110); the full statement for all strings is false because the printer changes some of them (C84). C102_empty_variable shows the loss of empty variables on a file that meets the hypotheses."
  },
  {
   "property": "C103",
   "status": "partial",
   "theorems": [
    "Drone.C103_formatted_partial",
    "Drone.C103_gitlab_partial",
    "Drone.C103_bitbucket_partial",
    "Drone.C103_legacy_partial",
    "Drone.C103_blank_changes"
   ],
   "note": "C103_formatted_partial holds for every manifest in which nothing empty is listed (Tight) and that meets the conditions of C84 (strings the printer does not change, lines under 64 KiB); the three corollaries derive Tight from the file. The full statement is false: C103_blank_changes is a legacy file that meets the other hypotheses and is changed by formatting."
  },
  {
   "property": "C104",
   "status": "proved",
   "theorems": [
    "Drone.C104_slug",
    "Drone.C104_slug_other",
    "Drone.C104_name_unique",
    "Drone.C104_services",
    "Drone.C104_lint_iff",
    "Drone.C104_clash",
    "Drone.C104_not_injective"
   ],
   "note": "names of services by an inductive relation over the grammar of image names (C90); acceptance by the linter as an iff on the GitLab file"
  },
  {
   "property": "C105",
   "status": "proved",
   "theorems": [
    "Drone.C105_never_stuck_iff",
    "Drone.C105_completes",
    "Drone.C105_pipeline_iff",
    "Drone.C105_runs",
    "Drone.C105_clone_first",
    "Drone.C105_stuck"
   ],
   "note": "schedules are an inductive relation over dependency graphs; stuck-freedom is characterised for all graphs and, exactly, for compiled pipelines. The runtime that executes the steps is not part of the repository; that a step starts once its dependencies are finished is the assumption built into the relation"
  },
  {
   "property": "C106",
   "status": "proved",
   "theorems": [
    "Drone.C106_legacy",
    "Drone.C106_legacy_matrix",
    "Drone.C106_matrix",
    "Drone.C106_axes",
    "Drone.C106_axes_iff",
    "Drone.C106_gitlab",
    "Drone.C106_bitbucket",
    "Drone.C106_convert",
    "Drone.C106_volumes",
    "Drone.C106_secrets",
    "Drone.C106_job",
    "Drone.C106_parallel",
    "Drone.C106_empty_item",
    "Drone.C106_empty_job"
   ],
   "note": "matrix: for at most twelve variables, short of an overflow"
  },
  {
   "property": "C107",
   "status": "proved",
   "theorems": [
    "Drone.C107_secret_ref",
    "Drone.C107_secret_decl",
    "Drone.C107_constraints",
    "Drone.C107_container",
    "Drone.C107_image",
    "Drone.C107_gitlab_job",
    "Drone.C107_gitlab",
    "Drone.C107_bitbucket_step",
    "Drone.C107_legacy",
    "Drone.C107_bitbucket",
    "Drone.C107_container_refused",
    "Drone.C107_job_refused",
    "Drone.C107_gitlab_refused",
    "Drone.C107_step_refused",
    "Drone.C107_global_key"
   ],
   "note": "Model of the yaml decoder; the bytes-to-node step (go-yaml parser) is outside the model."
  },
  {
   "property": "C108",
   "status": "proved",
   "theorems": [
    "Drone.C108_int",
    "Drone.C108_bool",
    "Drone.C108_float",
    "Drone.C108_string",
    "Drone.C108_size",
    "Drone.C108_unique"
   ],
   "note": "Numbers are exact; int64 of a float out of range is that of amd64 (the language leaves it open)."
  },
  {
   "property": "C109",
   "status": "proved",
   "theorems": [
    "Drone.C109_legacy",
    "Drone.C109_names",
    "Drone.C109_service_clash",
    "Drone.C109_clone",
    "Drone.C109_axis",
    "Drone.C109_twice",
    "Drone.C109_axis_mounts",
    "Drone.C109_bitbucket"
   ],
   "note": "For axes: values that are not empty; that the conversion gives the pipeline of the axis is C98."
  },
  {
   "property": "C110",
   "status": "proved",
   "theorems": [
    "Drone.C110_documents",
    "Drone.C110_unseen",
    "Drone.C110_commands",
    "Drone.C110_saved",
    "Drone.C110_printed",
    "Drone.C110_lost"
   ],
   "note": "the exact meaning of lines of 64 KiB or more, which other properties exclude"
  },
  {
   "property": "C111",
   "status": "partial",
   "theorems": [
    "Drone.C111_matrix_partial",
    "Drone.C111_example"
   ],
   "note": "Proved for files whose axes have no empty values and whose filled-in text is read as the tree of the filled-in strings (GoodAxis, which C98_good derives from conditions on the texts; C98_number shows that it can fail), whose strings are Readable and whose lines are under 64 KiB (as in C102; C110 says what longer lines do). C111_example meets all hypotheses with two axes."
  },
  {
   "property": "C112",
   "status": "proved",
   "theorems": [
    "Drone.C112_accepted_iff",
    "Drone.C112_read",
    "Drone.C112_determined",
    "Drone.C112_failed"
   ],
   "note": "The range of integers and of doubles is left out: encoding/json also refuses integers of more than 64 bits and numbers of more than 1.8e308."
  },
  {
   "property": "C113",
   "status": "proved",
   "theorems": [
    "Drone.C113_commute",
    "Drone.C113_order",
    "Drone.C113_apart_exact",
    "Drone.C113_environ",
    "Drone.C113_limits",
    "Drone.C113_labels_first",
    "Drone.C113_resolve_first"
   ],
   "note": "C113_order: any permutation of pairwise independent transforms; C113_apart_exact: for every pair of aspects not counted as independent there are transforms that do not commute. Two sets of variables are compared as maps (C113_environ), since the model keeps maps as lists."
  },
  {
   "property": "C114",
   "status": "proved",
   "theorems": [
    "Drone.C114_accepted_iff",
    "Drone.C114_read",
    "Drone.C114_determined"
   ],
   "note": "exact condition for success, what is read, and that it is determined; trees are those of the documents with aliases expanded, the parser of the text and of sizes are parameters"
  },
  {
   "property": "C115",
   "status": "proved",
   "theorems": [
    "Drone.C115_legacy",
    "Drone.C115_axes",
    "Drone.C115_builds",
    "Drone.C115_gitlab",
    "Drone.C115_bitbucket",
    "Drone.C115_repeated",
    "Drone.C115_refused"
   ],
   "note": "The trees are those of the YAML library, with aliases expanded and merge keys resolved; the text written for a legacy container's name (yaml.Marshal of a scalar) is a parameter. Matrix, axes and builds are separate theorems because the file is read once for each."
  },
  {
   "property": "C116",
   "status": "proved",
   "theorems": [
    "Drone.C116_reader",
    "Drone.C116_file",
    "Drone.C116_silent",
    "Drone.C116_idle",
    "Drone.C116_together"
   ],
   "note": "The exception (last line of exactly 65536 bytes with the end reported together with it) is excluded by hypothesis in C116_reader and shown to be needed by C116_together; the limit of 100 empty reads is sharp (C116_idle). bufio.Scanner of the standard library is modelled from its documented source; the number of rounds is unbounded (enough exist)."
  },
  {
   "property": "C117",
   "status": "proved",
   "theorems": [
    "Drone.C117_sound",
    "Drone.C117_iff",
    "Drone.C117_unambiguous",
    "Drone.C117_slashes",
    "Drone.C117_branch",
    "Drone.C117_tag",
    "Drone.C117_limits"
   ],
   "note": "path.Match modelled from its published source over characters (exact for names in ASCII: Go goes from byte to byte behind a star). C117_limits: the conditions on classes and slashes cannot be dropped."
  },
  {
   "property": "C118",
   "status": "proved",
   "theorems": [
    "Drone.C118_runs",
    "Drone.C118_stops",
    "Drone.C118_status",
    "Drone.C118_credentials",
    "Drone.C118_step",
    "Drone.C118_limits"
   ],
   "note": "For commands without backquotes (C38) whose lines are complete commands by themselves. The shell is a specification (Spec/Shell.lean): trusted as a description of POSIX sh for the lines that occur; HOME without blanks. C118_limits: exit 0 and set +e."
  },
  {
   "property": "C119",
   "status": "proved",
   "theorems": [
    "Drone.C119_runs",
    "Drone.C119_shown",
    "Drone.C119_stops",
    "Drone.C119_status",
    "Drone.C119_credentials",
    "Drone.C119_step",
    "Drone.C119_apostrophe",
    "Drone.C119_limits"
   ],
   "note": "For commands whose quotes, brackets and comments are closed and whose single quotes come in pairs (C67). PowerShell is a specification (Spec/Power.lean): trusted as a description of how scripts are cut into statements and of the statements that occur. C119_apostrophe and C119_limits show what happens otherwise."
  },
  {
   "property": "C120",
   "status": "proved",
   "theorems": [
    "Drone.C120_local",
    "Drone.C120_image",
    "Drone.C120_others",
    "Drone.C120_parallel_leak",
    "Drone.C120_image_leak"
   ],
   "note": "Any two pipelines with the same clone section, workspace and platform; the script file of a step is C40_own_script, redirected images are C35."
  },
  {
   "property": "C121",
   "status": "proved",
   "theorems": [
    "Drone.Slices.C121_gitlab",
    "Drone.Slices.C121_job",
    "Drone.Slices.C121_gitlab_shared",
    "Drone.Slices.C121_unchanged_iff",
    "Drone.Slices.C121_depends",
    "Drone.Slices.C121_full",
    "Drone.Slices.C121_disjoint",
    "Drone.Slices.C121_again",
    "Drone.Slices.C121_compile",
    "Drone.Slices.C121_shared"
   ],
   "note": "Refinement: the list-valued models of the GitLab converter (C121_job) and of Compile (C121_compile) agree with the code on shared arrays; C121_unchanged_iff is the exact condition, C121_shared and C121_gitlab_shared show why it is needed. Decoded lists have no spare capacity (trusted: the YAML library makes them so)."
  },
  {
   "property": "C122",
   "status": "proved",
   "theorems": [
    "Drone.Sha.C122_hash",
    "Drone.Sha.C122_mac",
    "Drone.Sha.C122_sign",
    "Drone.Sha.C122_length",
    "Drone.Sha.C122_same_key",
    "Drone.Sha.C122_zero",
    "Drone.Sha.C122_long",
    "Drone.Sha.C122_block_iff",
    "Drone.Sha.C122_texts",
    "Drone.Sha.C122_equal",
    "Drone.Sha.C122_verify",
    "Drone.Sha.C122_other_key"
   ],
   "note": "C122_sign and C122_verify connect the code with its buffers to the MAC parameter of C05 to C11. That different blocks give different MACs is a matter of cryptography and not claimed."
  },
  {
   "property": "C123",
   "status": "proved",
   "theorems": [
    "Drone.C123_nearest",
    "Drone.C123_read",
    "Drone.C123_injective",
    "Drone.C123_shortest",
    "Drone.C123_fifteen",
    "Drone.C123_exponent_iff",
    "Drone.C123_json_exponent_iff",
    "Drone.C123_same_iff",
    "Drone.C123_number",
    "Drone.C123_int_iff",
    "Drone.C123_plain",
    "Drone.C123_line",
    "Drone.C123_reread",
    "Drone.C123_setting_ok",
    "Drone.C123_cpu",
    "Drone.C123_variable_iff",
    "Drone.C123_map",
    "Drone.C123_nested",
    "Drone.C123_compiled",
    "Drone.C123_distinct",
    "Drone.C123_resolver",
    "Drone.C123_differs",
    "Drone.C123_tiny",
    "Drone.C123_limits_iff",
    "Drone.C123_limits_whole",
    "Drone.C123_limits_negative",
    "Drone.C123_sizes"
   ],
   "note": "The texts of floating point numbers are those of strconv.FormatFloat with 'g' and -1 and of encoding/json, modelled from their published sources with exact arithmetic. Infinities, NaN, negative zero and floats as map keys are not modelled. C123_limits_iff: with the real texts, limits survive formatting exactly if the memory does."
  },
  {
   "property": "C124",
   "status": "proved",
   "theorems": [
    "Drone.C124_true",
    "Drone.C124_accepts_iff",
    "Drone.C124_panic",
    "Drone.C124_begins",
    "Drone.C124_begins_services",
    "Drone.C124_first_step",
    "Drone.C124_trust_same",
    "Drone.C124_trust_gone",
    "Drone.C124_trust_message",
    "Drone.C124_cyclical",
    "Drone.C124_cycle_of_two",
    "Drone.C124_manifest_true",
    "Drone.C124_manifest_iff",
    "Drone.C124_command"
   ],
   "note": "C124_true and C124_accepts_iff: messages are sound and complete; C124_panic: panics only on null entries; C124_begins, C124_begins_services, C124_first_step: the first defect is named whatever follows; C124_trust_same, C124_trust_gone, C124_trust_message: messages and trust; C124_cyclical, C124_cycle_of_two: which cycles are called cycles; C124_manifest_true, C124_manifest_iff, C124_command: whole files and the lint command. Which of several defects of one container is named is not claimed."
  },
  {
   "property": "C125",
   "status": "proved",
   "theorems": [
    "Drone.C125_expand",
    "Drone.C125_unique",
    "Drone.C125_plain",
    "Drone.C125_refused",
    "Drone.C125_copy",
    "Drone.C125_list_alias",
    "Drone.C125_overlaid",
    "Drone.C125_environment",
    "Drone.C125_environment_reset",
    "Drone.C125_when",
    "Drone.C125_merge_first",
    "Drone.C125_merge_last",
    "Drone.C125_merge_list",
    "Drone.C125_written_keys_do_not_count",
    "Drone.C125_written_keys_count",
    "Drone.C125_exclusions_stay",
    "Drone.C125_document",
    "Drone.C125_same"
   ],
   "note": "Trust in the library as stated in Model/Alias. Conditions and resources of two parts of a step are united section by section (C125_when); which field of a limit decides is not stated."
  },
  {
   "property": "C126",
   "status": "proved",
   "theorems": [
    "Drone.C126_read_iff",
    "Drone.C126_unambiguous",
    "Drone.C126_whole_iff",
    "Drone.C126_write",
    "Drone.C126_indent",
    "Drone.C126_same_tree",
    "Drone.C126_injective",
    "Drone.C126_bytes_iff",
    "Drone.C126_safe",
    "Drone.C126_marshal",
    "Drone.C126_manifest",
    "Drone.C126_manifest_iff",
    "Drone.C126_accepted_iff",
    "Drone.C126_same_text",
    "Drone.C126_setting"
   ],
   "note": "the reader decides the relation between texts and trees given by the grammar; writing and reading are inverse for all trees MarshalJSON makes; bytes that are not UTF-8, the limit on depth and numbers of 2^1024 or more are not modelled"
  },
  {
   "property": "C127",
   "status": "proved",
   "theorems": [
    "Drone.C127_add_step",
    "Drone.C127_add_service",
    "Drone.C127_remove_step",
    "Drone.C127_swap_steps",
    "Drone.C127_services",
    "Drone.C127_rename",
    "Drone.C127_looks_at",
    "Drone.C127_trust_iff",
    "Drone.C127_others",
    "Drone.C127_concat",
    "Drone.C127_prefix",
    "Drone.C127_remove_pipeline",
    "Drone.C127_swap_pipelines",
    "Drone.C127_rename_pipelines"
   ],
   "note": "equivalences and equalities for all pipelines and manifests"
  },
  {
   "property": "C128",
   "status": "proved",
   "theorems": [
    "Drone.C128_posix_iff",
    "Drone.C128_windows_iff",
    "Drone.C128_shown_iff",
    "Drone.C128_shown_differs",
    "Drone.C128_shown_alike",
    "Drone.C128_shown_windows"
   ],
   "note": "injectivity of both scripts without conditions; the log exactly"
  },
  {
   "property": "C129",
   "status": "proved",
   "theorems": [
    "Drone.C129_same",
    "Drone.C129_bare",
    "Drone.C129_command",
    "Drone.C129_seen",
    "Drone.C129_devices"
   ],
   "note": "Callbacks are any functions that answer alike for the paired containers; the converse (C129_seen) is for the library's workspace functions and no transform."
  },
  {
   "property": "C130",
   "status": "proved",
   "theorems": [
    "Drone.C130_lines",
    "Drone.C130_signature_iff",
    "Drone.C130_transplant",
    "Drone.C130_insert",
    "Drone.C130_behind",
    "Drone.C130_moved"
   ],
   "note": "The YAML library is a parameter; C130_moved holds for every parser that agrees with the grammar of Spec/Block."
  },
  {
   "property": "C131",
   "status": "proved",
   "theorems": [
    "Drone.C131_confined",
    "Drone.C131_steps",
    "Drone.C131_places"
   ],
   "note": "The random identifiers are a given sequence, the same for both runs. A script of a container named .git-credentials is blanked too (see C36)."
  },
  {
   "property": "C132",
   "status": "proved",
   "theorems": [
    "Drone.C132_result",
    "Drone.C132_again",
    "Drone.C132_builds_iff",
    "Drone.C132_builds",
    "Drone.C132_metadata",
    "Drone.C132_directory",
    "Drone.C132_no_ref",
    "Drone.C132_oss",
    "Drone.C132_command"
   ],
   "note": "decoding of foreign files is a parameter here; see C107 and C115"
  },
  {
   "property": "C133",
   "status": "proved",
   "theorems": [
    "Drone.C133_variables",
    "Drone.C133_commands",
    "Drone.C133_windows",
    "Drone.C133_precedence",
    "Drone.C133_script_replaced"
   ],
   "note": "build steps and the clone step: C88; what else a runner puts into the environment is left open (StartedIn)"
  },
  {
   "property": "C134",
   "status": "proved",
   "theorems": [
    "Drone.C134_same",
    "Drone.C134_bare",
    "Drone.C134_inert",
    "Drone.C134_manifest",
    "Drone.C134_counts"
   ],
   "note": ""
  },
  {
   "property": "C135",
   "status": "proved",
   "theorems": [
    "Drone.C135_signature",
    "Drone.C135_verified",
    "Drone.C135_resources",
    "Drone.C135_run"
   ],
   "note": "Under the condition that the two contents are no collision of the MAC (as in C09). C135_resources and C135_run also need resources that survive formatting (ResourceOk, as in C84); C135_signature and C135_verified do not."
  },
  {
   "property": "C136",
   "status": "proved",
   "theorems": [
    "Drone.C136_renamed",
    "Drone.C136_build",
    "Drone.C136_blank",
    "Drone.C136_alpha",
    "Drone.C136_command"
   ],
   "note": "Compilers with the library's workspace functions. Pipelines with build steps: up to the images of the steps and the alias variable (C136_build); how these hold the identifier is C35."
  },
  {
   "property": "C137",
   "status": "proved",
   "theorems": [
    "Drone.C137_lint",
    "Drone.C137_compile",
    "Drone.C137_callbacks",
    "Drone.C137_command"
   ],
   "note": "Compilers with the library's workspace functions; the callbacks may not look at names, which C137_callbacks proves of those of the command. The renaming keeps clone, .git-credentials (compile) and the empty name (lint)."
  },
  {
   "property": "C138",
   "status": "proved",
   "theorems": [
    "Drone.C138_lint",
    "Drone.C138_compile",
    "Drone.C138_callbacks",
    "Drone.C138_manifest",
    "Drone.C138_find"
   ],
   "note": "Compilers with the library's workspace functions; the callbacks may not look at volumes, which C138_callbacks proves of those of the command. The renaming keeps workspace, host and _docker_socket."
  }
 ]
}
