"""Write DESIGN.md from MANIFEST.json, properties.jsonl and the texts below; run in /verif."""
head = r'''# Formal model of drone/drone-yaml in Lean 4

## Layout

* `lean/Verif/Model/*` is the executable model, one file per Go package or group of files. Every definition cites the Go file and lines it models and says where it simplifies.
* `lean/Verif/Spec/*` holds small declarative specifications that the theorem statements use and the model does not.
* `lean/Verif/Proof/*` holds helper lemmas.
* `lean/Verif/Props/*` holds the property theorems named in MANIFEST.json. Beside each stands an example that meets its hypotheses.
* `properties.jsonl` lists the properties, `MANIFEST.json` their status and theorems, `AXIOMS.md` the axioms of every theorem (written by `tools/axioms.py`).
* `seeded/LOG.jsonl` is the log of wrong programs tried against the theorems. `tools/mutate.py` edits a scratch copy of the model and rebuilds, `tools/log_mutations.py` writes the log lines.

A theorem named `Cnn_…` belongs to property Cnn. The suffix `_partial` marks a theorem that proves less than the property says. A property that the code does not have is refuted by a theorem (see Findings), and its claim is `partial` with what does hold.

## Modelling conventions

* A Go `string` is a Lean `String`, that is valid UTF-8 text. File contents, MAC inputs and printed files are `List UInt8`. Image names are `List Char` inside `Model/Image.lean`.
* A Go map is an association list (`GoMap`) whose list order is the arbitrary iteration order. Order independence is always a theorem about permutations. Where the code ranges over a map it built itself, the order is a separate parameter.
* A nil pointer in a list or map is `none`. A panic (nil dereference, write to a nil map, division by zero) is the outcome `none`. An error is `Except.error`.
* `int` and `int64` are unbounded `Int`, except in the matrix (C59), where the overflow of `int` is part of the model. `float64` is the rational it stands for. The one arithmetic operation on floats (`toCPUMillis`) is rounded as IEEE 754 binary64 prescribes (`Model/Float64.lean`).
* `rand.String()` in the compiler draws from an arbitrary numbered supply; uniqueness theorems assume that the supply has no repetitions. `rand.String` itself is modelled over byte streams (C45).
* Callbacks (`SkipFunc`, `PrivilegedFunc`, `TransformFunc`, `SecretFunc`, …) are arbitrary functions.

## Libraries outside /repo

| library | how it enters |
|---|---|
| YAML parser (text to tree) | never modelled. Signing and file splitting take an arbitrary decoder. C84 and C85 quantify over every parser that agrees with the small block grammar of `Spec/Block.lean` (`parser_exists` shows there is one) |
| YAML decoder (tree to Go values) | `Model/Node.lean`, from the published behaviour of yaml.v2: struct tags, collected type errors, scalar conversions. **Trusted** by C21, C77–C85 |
| YAML encoder for settings, JSON | parameters of the compiler; `Model/Encode.lean` models `encodeSlice`, `encodeMap`, `YAMLToJSON` and the JSON encoder from their published sources, with marshalling and reading of YAML taken to be inverse and the texts of floats as parameters; `Model/FloatText.lean` models these texts from the published sources of strconv and encoding/json. **Trusted** by C93 and C123 |
| doublestar | a parameter (`Glob`) of the conditions, so that C18–C20 and C62 hold of every matcher; C62 needs two laws (`GlobLaws`). `Model/Glob.lean` models `doublestar.Match` of v1.1.1 from its published source; C91 shows what it means and `C91_laws` that it obeys the laws. **Trusted** by C91 |
| `path.Match`, `filepath.Match` | a parameter of the converter; `Model/PathMatch.lean` models `path.Match` from its published source, over characters. **Trusted** by C117 |
| docker `reference` | `Model/Image.lean`, from its published source. **Trusted** by C43, C44, C90. `digest.Parse` is a parameter with laws (`DigestLib`, met by `shaDigests`) |
| HMAC-SHA256 | a parameter of the signer, some theorems assume 32 byte results; `Model/Hmac.lean` models crypto/sha256, crypto/hmac and crypto/subtle from their published sources, `C122_sign`, `C122_verify` and `C122_length` connect the two. **Trusted** by C122 |
| hex, base64, `%q` (posix), `path.Clean/Join`, `bufio.Scanner` | modelled concretely; C37 proves base64 decodes back, C42 that cleaned paths are clean |
| `strings.ToUpper`, `unicode.IsPrint`, float formatting, `url.Parse` | parameters |
| go-units (`RAMInBytes`, `BytesSize`) | parameters of the decoder and the printer; `Model/Units.lean` models v0.3.3 from its published source, with correctly rounded `ParseFloat` and `%.4g`. **Trusted** by C92 |
| kingpin (command line parsing) | not modelled: a command gets its flag values |
| regexp (`pipeline:` line of legacy files) | specified by lines (`PipelineLine`) |

## What is modelled

| Go | Lean |
|---|---|
| yaml/parse.go, manifest.go (kinds) | Model/ParseRaw |
| yaml/*.go data types | Model/Types |
| yaml/*.go `UnmarshalYAML`, `MarshalYAML`, struct tags | Model/Decode over Model/Node |
| yaml/manifest.go `Encode`, `MarshalYAML`, `omitempty` | Model/Marshal |
| yaml/manifest.go `MarshalJSON`, `UnmarshalJSON`, `json` tags | Model/ManifestJson, Model/JsonText |
| yaml/cond.go, compiler/skip.go, run policy | Model/Cond |
| yaml/linter, `Validate` methods | Model/Lint |
| yaml/signer | Model/Signer, Model/SignTree, Model/Hmac |
| yaml/compiler: compiler, step, clone, convert, encode, workspace, setupScript | Model/Compile, Model/Path, Model/Float64, Model/Encode, Model/FloatText |
| yaml/compiler/script_posix.go, script_win.go | Model/Script |
| yaml/compiler/image, dind.go | Model/Image, Model/Dind |
| yaml/compiler/internal/rand | Model/Rand |
| yaml/compiler/transform | Model/Transform |
| engine types of drone-runtime | Model/Engine (only the fields the code reads or writes) |
| yaml/pretty | Model/Pretty |
| yaml/converter: dispatcher, gitlab, bitbucket | Model/Convert, Model/DecodeConvert |
| yaml/converter/legacy, legacy/matrix | Model/Legacy, Model/Matrix, Model/MatrixTree, Model/DecodeConvert |
| main.go | Model/Cli |
| `append` on shared arrays (gitlab/convert.go:48-52, compiler.go:181 and 220) | Model/Slices |

Not modelled: yaml/converter/circleci (type declarations that nothing uses), error message texts where no caller looks at them, JSON texts that are not UTF-8 or nest deeper than Go permits, the order of keys of maps in JSON (lists that stand for maps are taken to be sorted), the text that the YAML encoder writes for a tree (C97 quantifies over it), nulls spelled `Null` or `NULL` (trees have one kind of null, the one written `null`, `~` or nothing; the library calls the decoders of /repo for the other two spellings and gives them an empty value), anchors defined twice, used before they are defined, or used under keys that are not read (C125 covers the others; everywhere else trees have aliases expanded), timestamps and binary scalars in YAML trees, strict decoding, NaN and infinities, partial writes of files (read errors: C116), concurrent use, command line parsing.

## Specifications

* `Spec/Lines` lines of a byte stream and the documents they make up (C01, C02).
* `Spec/Graph` acyclicity by paths (C13, C15, C26).
* `Spec/Schedule` orders in which the nodes of a graph may run (C105).
* `Spec/Sources` what containers a pipeline consists of, before compiling (C22–C41, C86–C88).
* `Spec/Tree` reading scalars and keys off a YAML tree (C77, C78).
* `Spec/Yaml` what a YAML reader makes of plain and double-quoted scalars (C55, C68).
* `Spec/Block` a block grammar with unique readings (C84, C85).
* `Spec/Kept` what formatting keeps of a manifest (C84, C85).
* `Spec/PathMatch` the grammar and the meaning of the patterns of `path.Match` (C117).
* `Spec/Shell` a POSIX shell for the lines that generated scripts consist of, with the commands of the user as a parameter (C118). It stands for the shell of the container and is part of what C118 trusts.
* `Spec/BlockText` a simple way to write a tree as a block text; it shows that a library as assumed exists (C97, C98).
* `Spec/Retag` trees that are equal except that texts may be read as something else than strings (C98, C111).
* `Spec/Hmac` SHA-256 and HMAC of whole messages (C122).
* `Spec/FloatText` a reader of decimal numbers, the number of digits a number needs (C123).
* `Spec/Message` what each message of the linter says (C124).
* `Spec/Alias` what a document with anchors stands for, as an inductive relation (C125).
* `Spec/JsonText` the grammar of JSON and what a text stands for (C126).
* `Spec/Unseen` which pipelines differ only in what does not count (C129).
* `Spec/Power` PowerShell for the statements that generated scripts consist of, likewise (C119).
* `Spec/ImageName` the grammar of image names, their full and short form (C90).
* `Spec/Glob` the grammar and the meaning of patterns (C91).
* `Spec/Units` the grammar of sizes (C92).
* `Spec/Json` a JSON reader, and the JSON value that stands for a setting (C93).
* `Spec/Stored` what `Encode` keeps of a manifest (C97).
* `Spec/ManifestJson` doubles, settings with their numbers as doubles, comparison of keys up to case (C99).
* `Spec/Fill` texts with references, and a pipeline with all its strings mapped (C98).
* Small specifications used by one property stand in `namespace Drone.Spec` in its Props file.

## Per property

'''
tail = r'''
## Trusted base

* The Lean 4.33.0 kernel. Axioms: at most `propext`, `Classical.choice`, `Quot.sound`; `AXIOMS.md` lists them for every theorem. No `sorry`, no `native_decide`, no `bv_decide`, no axioms of our own.
* The reading of the Go sources that the model encodes. It was made by hand from the text of /repo, the code was never run.
* The trusted library models named above (`Model/Node.lean`, `Model/Marshal.lean` for `omitempty` and the order of keys, `Model/Image.lean`, `Model/Float64.lean`, the standard library functions of `Model/Script.lean`, `Model/Path.lean`, `Model/Rand.lean`, `Model/Glob.lean`, `Model/Units.lean`, `Model/Encode.lean`, `Model/PathMatch.lean`, `Model/Hmac.lean`, `Model/FloatText.lean`, `Model/Scanner.lean` for `bufio.Scanner`) and the laws stated as hypotheses.
* The specifications under `Spec` and in the statements.

## Findings

Statements that users would expect and that are false of the code, each proved in the model.

| theorem | what happens |
|---|---|
| `C05_double_cr_fails` | a line ending in two carriage returns makes a freshly signed file fail verification |
| `C09_boundaries_not_signed` | document boundaries are not covered by the signature |
| `C26_service_cycle` | services may declare dependencies and make the compiled graph cyclic |
| `C28_socket_hijack` | a build section naming the image drone/docker redirects every build step to an image of the author's choice, with the docker socket mounted |
| `C32_host_volume_namespace`, `C48_labels_panic` | the volume of the host workspace has no namespace and no label map |
| `C33_service_workdir_lost` | a service that is not declared detached loses its working directory |
| `C34_setting_collision` | two settings with the same variable name are resolved by map order |
| `C35_ambiguous_builds` | two build steps for the same image are resolved by map order |
| `C36_name_clash` | a container named .git-credentials gets the credentials mounted |
| `C38_backquote`, `C67_quote` | tracing a command runs what stands in backquotes (posix) or breaks out of the quotes (Windows) |
| `C39_null_port` | a null port of a trusted pipeline panics the compiler |
| `C43_hub_host_confusion`, `C90_hostname_lost` | docker.io/localhost/x trims to the name of another image; a host with an underscore is never matched |
| `C92_changed`, `C92_drift`, `C92_readable_iff`, `C92_second_unreadable` | formatting changes sizes that need more than four digits; small ones shrink each time; from one exbibyte (less 64 bytes) on the printed size cannot be read, and from 1023.5 PiB on the second formatting makes it so |
| `C93_refused`, `C93_clash`, `C93_ambiguous` | a null key empties the variable of a setting; keys 1 and "1" collide; commas in list elements are ambiguous |
| `C94_empty_variable`, `C94_refused_accepted` | formatting unsets variables with an empty value; it drops what the linter refused |
| `C95_sharp` | a file can change with each of four formattings |
| `C96_format_breaks` | a file that was formatted, signed and verified does not verify after one more formatting |
| `C97_unformattable` | `Encode` turns empty variables and settings into nulls, on which the printer panics |
| `C98_empty_variable`, `C98_number` | an empty variable makes the conversion of a legacy file with a matrix panic; a setting `${GO}` with the value 1.10 becomes 1.1 |
| `C101_dot`, `C101_kubernetes_compiled` | a legacy workspace path `.` means the path of the repository, but the base when converted for Kubernetes; such a pipeline, compiled by this library, runs below `/drone/src` |
| `C102_empty_variable` | a variable set to the empty string in a legacy file is not set after conversion |
| `C113_resolve_first` | secrets resolved before steps are excluded: the secrets of the excluded steps are asked for and handed to the runtime |
| `C113_labels_first` | labels given before global volumes do not reach those volumes |
| `C116_silent` | An error while reading is never reported, what was read before it is parsed as the whole; `ParseFile` of a directory is an empty manifest |
| `C116_together` | Whether a last line of exactly 65536 bytes is read depends on whether the reader reports the end together with its last bytes |
| `C117_limits` | A Bitbucket pattern with a class that has a slash behind a star can miss a name it stands for (`*[^a]*b` and `x/b`); a tag pattern with two slashes is taken for branches, before their own patterns |
| `C119_apostrophe` | on Windows an apostrophe in the last command makes the script unreadable: no command is run |
| `C119_limits` | on Windows the failure of a command with a trailing comment, or of a line before the last of its command, goes unnoticed |
| `C118_limits` | `set +e` and `exit 0` in a command hide failures |
| `C120_image_leak` | a service, or the plugin that runs all build steps, is redirected to an image that the pipeline builds only later: building `redis` in a step makes the `redis` service wait for an image that does not exist when it is started |
| `C121_shared` | a program that hands over dependency lists which overlap in one array gets them overwritten: compiling the services with `deps[:1]` and `deps` makes the second one lose its second dependency, in the pipeline too |
| `C122_zero`, `C122_long` | two different keys can be the same key: appended zero bytes do not count, and a key of more than 64 bytes can be replaced by its 32 byte hash |
| `C123_differs`, `C123_same_iff` | the same number reaches a plugin as `1.2345675e+06` if it is the setting and as `1234567.5` if it stands in a map |
| `C124_cycle_of_two`, `C124_cyclical` | two steps that wait for each other are refused as an unknown dependency; the message about cycles is only given to a step that lists itself, and `ErrCyclicalPipelineDependency` is never returned |
| `C125_written_keys_do_not_count` | a merge key that comes after a key overrides it: `{privileged: false, <<: *base}` is privileged if the base is, whatever YAML says about merge keys |
| `C125_exclusions_stay` | `branch: master` written over a merged `branch: {exclude: [master]}` keeps the exclusion, so the step never runs |
| `C125_list_alias` | a list of maps can be merged where it is written, but not through an alias |
| `C128_shown_alike` | the log does not determine the command: a line feed shows as `\\n`, which is also how a backslash and an n show |
| `C129_devices`, `C129_bare` | `devices`, `shell`, `push` and the `args` and `labels` of a build section have no effect on what is compiled, although a device makes the linter refuse an untrusted pipeline |
| `C130_moved`, `C130_transplant` | the signature covers the lines of the documents, not where one ends and the next begins: without the key a separator can be moved so that a pipeline loses its trigger and the file still verifies |
| `C132_directory` | `convert ci/.gitlab-ci.yml` prints the GitLab file unconverted and reports success |
| `C132_no_ref` | `convert bitbucket-pipelines.yml` cannot be told a branch or tag |
| `C133_script_replaced` | on Windows `--env CI_SCRIPT=...` replaces the script of every step |
| `C133_precedence` | `--env` overrides the variables of the workspace, which the file cannot |
| `C134_inert` | neither lint nor compile takes notice of `trigger`, `depends_on` of pipelines, `node`, `concurrency`, `image_pull_secrets`, `shell`, `push` and build arguments |
| `C110_saved`, `C110_lost` | a line of 64 KiB ends the file without an error: fmt --save and sign --save delete the rest, and a formatted manifest with such a line is read back without the resources after it |
| `C92_negative` | a negative size is accepted, but what fmt prints for it is refused |
| `C109_service_clash`, `C109_clone`, `C109_twice` | a legacy service called like a step, a legacy step called clone, or a step that meets two entries of its matrix condition make the converted pipeline fail the linter |
| `C107_global_key` | in a GitLab file without stages, unknown global keys such as `cache` or `default` become pipelines |
| `C106_parallel`, `C106_empty_item`, `C106_empty_job` | a Bitbucket file with parallel steps, a legacy file with an empty item under `volumes` and a GitLab file with an empty job crash the converter |
| `C105_stuck` | services of an accepted pipeline that wait for each other, or for a name that does not exist, never start |
| `C104_clash`, `C104_not_injective` | two GitLab services `postgres:9` and `postgres:10` without alias get the same name, so the linter refuses every converted pipeline; so do `team/db` and `team__db` |
| `C103_blank_changes` | a legacy container with only empty variables is converted to an `environment:` without entries, which `fmt` removes |
| `C99_refused`, `C99_number_lost`, `C99_variable_iff` | a manifest with a map in a setting cannot be encoded as JSON; integer settings come back as doubles, 2^53+1 as 2^53, and the variable of 1000000 becomes 1e+06 |
| `C46_resumeAt_unknown` | resuming at an unknown step disables everything |
| `C59_empty_list`, `C59_overflow` | an empty matrix axis panics; the size of the matrix can overflow |
| `C60_clone_volume`, `C61_clash`, `C70_or`, `C72_lost`, `C73_matrix_order` | legacy conversion: undefined clone volumes, clashing names, duplicated steps, a lost pipeline, map order |
| `C63_panic`, `C63_limits`, `C64_limits`, `C81_allow_failure_ignored`, `C83_parallel_panics` | GitLab and Bitbucket conversion |
| `C65_convert_save_ignored` | `convert --save` never writes |
| `C68_exceptions`, `C68_types_lost`, `C85_not_idempotent` | the printer leaves scalars unquoted that YAML reads differently; formatting twice differs from formatting once |
| `C76_manifest_not_checked` | `lint` runs no checks across resources |
| `C77_include_ignored`, `C77_parts_ignored` | a scalar `include` or `exclude` is dropped and the condition matches everything |
| `C79_volume_limits`, `C82_spelling_lost` | legacy decoding: volumes without colon, numbers rewritten |
| `C86_cpu_loss` | `cpu: 2.01` becomes 2009 millicores |
'''
import json, subprocess
m=json.load(open('MANIFEST.json'))
p={json.loads(l)['id']:json.loads(l) for l in open('properties.jsonl')}
out=subprocess.run("grep -rnoE 'theorem (C[0-9]+_[A-Za-z0-9_]+)' lean/Verif/Props",shell=True,capture_output=True,text=True).stdout
mod={}
for l in out.splitlines():
    f,_,t=l.split(':',2); mod[t.split()[1]]=f.split('/')[-1][:-5]
how={
 **{c:'scanner and splitter as a state machine; induction over lines against `Spec/Lines`' for c in ['C01','C02']},
 **{c:'induction over documents, arbitrary decoder' for c in ['C03','C04']},
 **{c:'C02 and list algebra over an arbitrary MAC and decoder' for c in ['C05','C06','C07','C08','C09','C10','C11']},
 'C12':'acceptance as an iff with an independent rule set, induction over containers',
 'C13':'rank argument: every accepted dependency points backwards','C14':'induction','C15':'rank argument',
 'C16':'monotone in the trust flag','C17':'case analysis',
 'C18':'arbitrary glob matcher','C19':'iff over the list of conditions','C20':'case analysis',
 'C21':'decoding and encoding over `Model/Node`',
 **{f'C{i}':'refinement: a successful compilation is described container by container (`Proof/Compiled`), the property is a corollary' for i in range(22,42)},
 'C26':'rank argument on the compiled graph','C35':'invariant of the rename map',
 'C37':'base64 decoding inverse, script text by induction over commands','C38':'independent reading of double-quoted shell text, iff',
 'C39':'exact condition for success (iff)','C42':'normal form of paths, induction over segments',
 'C43':'a parsed reference prints to a string that parses to itself','C44':'iff','C45':'induction over the byte stream, table of 256 bytes',
 **{f'C{i}':'map lookups, permutation invariance' for i in range(46,52)},
 'C49':'callback with memory, trace of requests','C51':'fold',
 'C52':'writer invariants on bytes','C53':'sortedness determines the printed order','C54':'balance invariant of the writer','C55':'independent double-quoted reader','C56':'induction over chunks',
 'C57':'line specification of the regular expression','C58':'no printed manifest has a matching line',
 'C59':'mixed radix argument',**{c:'induction over the converted lists' for c in ['C60','C61','C62','C63','C64','C70','C71','C72']},
 'C65':'case analysis on commands, effects as values','C66':'iff with a separate selection','C67':'independent reading of PowerShell text',
 'C68':'independent plain scalar reader','C69':'iff by induction over the printed values','C73':'permutation invariance',
 'C74':'map lookups through the whole command','C75':'C05 and the command model','C76':'C12 and the command model',
 **{c:'decoding over `Model/Node`' for c in ['C77','C78','C79','C80','C81','C82','C83']},
 'C84':'the printer writes the block grammar, the grammar has unique readings, decoding the reading gives `keptManifest`','C85':'C84 twice',
 'C86':'refinement as for C22; rounding bounds in `Proof/Float64`','C87':'refinement as for C22','C88':'refinement as for C22','C89':'the transform is applied last',
 'C94':'C84, and compilation of containers that agree in what the compiler looks at (`Proof/Alike`), through all transforms',
 'C96':'the documents of a printed file are the texts printed for its resources one by one (C52), and the text of the signer is the text printed for a signature; C84 and C85 give what is read back',
 'C97':'the tree of every struct is decoded back field by field (`rt_*` in Proof/Marshal); what decoding gives meets the conditions (`parsed_storable`); that there is a library as asked is shown by a writer of block texts (Spec/BlockText) whose text is read as the tree (`blockText_reads`)',
 'C98':'encoding commutes with mapping strings (`map_pipeline`), and what is encoded is decoded into the old pipeline (`rt_pipeline_into`, C97); replacement of references in texts is `substitute_pieces`; a block text with values put in is read as the tree with the values in its strings (`reads_filled`, line by line and scalar by scalar), and decoding a pipeline does not see whether strings outside of settings are read as numbers (`blind_pipeline`)',
 'C100':'the converters set few fields (`SimplePipeline`), so that formatting and parsing gives the same pipelines (`simple_readBack`, from C84); the scripts by C63, C64, C40 and C37. Missing: strings outside `Readable` and lines of 64 KiB, as for C84',
 'C102':'composition of C71, C60, C84, C87, C40 and C22: the strings of converted containers are shown readable, what is read back of each is computed (`toPipeline_read`), and the parsed pipeline is compiled',
 'C109':'the converted containers have no builds, ports, devices or dependencies, so that C12 reduces to names, images and trust (`lint_simple`); the renaming loop computes the only list with `Renamed`, and an axis changes neither emptiness nor the names of volumes (`Replaces`)',
 'C110':'the line reader stops at the first long line, and the splitter at a terminator, so that the documents are those of the part before (`C110_documents`); commands are functions of what they parse',
 'C111':'C98 gives the pipelines of the axes, C84 that they are read back, C71 and C60 where their containers come from (the same file without its matrix), C87 and C72 what is run; `C111_example` has two axes',
 'C112':'`Spec.Shape` is a table of all types with their JSON names, saying which trees fit and what they tell; a decoder is `Sound` for a shape, and this is kept by lists, maps, pointers and structs (`sound_obj`: fields do not disturb each other); `Clear` shows that a tree tells one value only',
 'C113':'`Spec.About` sorts the transforms by what they are about and `Spec.Apart` says which aspects are independent; every transform is brought into one of nine forms (`Order.Form`), the forms commute, and permutations follow by induction; `C113_apart_exact` gives a counterexample for every pair that is not `Apart`',
 'C114':'`Spec.Form` is a table of all types with their YAML keys, saying which trees fit and what they tell; a decoder is `Faithful` to a form, and this is kept by lists, maps, pointers, short forms and structs (`reads_obj`; nested anonymous structs by `LineReads.group`); `Clear` shows that a tree tells one value only; documents by C03',
 'C115':'the forms of C114 extended by structs that collect unknown keys (`Form.wide`, `reads_wide`), by sections rewritten before they are read (`Rewritten`) and by the short forms of each format; `Faithful` and `Clear` again; the refusals by running `convert` on decoders given by trees (`onTrees`)',
 'C116':'`Model/Scanner.lean` is bufio.Scanner read by read, with its buffer; invariant of `scan_takes`: the pending bytes followed by the content of the reader are what is left of the stream, and a call takes one line of it (`fill_some`, `fill_none`); the loop by induction on the number of rounds, which a bound on the reads and bytes to come shows to be enough',
 'C117':'`Model/PathMatch.lean` is path.Match of the Go library, over characters; the language of the patterns is given inductively (`Spec/PathMatch.lean`: `Text`, `Names`); soundness by induction on the rounds; completeness because a chunk found too early leaves the star behind it no slash to skip: the slashes of a chunk are counted by its parts (`exchange`)',
 'C118':'`Spec/Shell.lean` is a shell that reads a script line by line, with the behaviour of the commands as a parameter; `head_run` runs the fixed lines on an arbitrary state, `commands_run` is an induction on the commands; the trace lines by C38; C118_credentials is an equality of runs from two states',
 'C119':'`Spec/Power.lean` reads a script character by character into statements and runs them, with the behaviour of the commands as a parameter; reading is a fold that does not depend on earlier statements (`foldl_push`), so the fixed parts are computed once and commands are an induction; C119_apostrophe follows the mode of the reader',
 'C120':'the field lemmas of compiled steps (`Common`, `PlainFacts`, `BuildFacts`) name everything a step is made of; two steps of one container agree in all of it except identifiers, rename table and the serial flag, and a rename table without a match leaves the image alone',
 'C121':'a model of arrays and slices (Model/Slices) with `append` for every growth policy; the two places that append to a list they did not make are modelled on it. GitLab: a list that is full or lies in a new array cannot disturb old arrays. Compile: an exact description of the cells that change, from which both the refinement to the list-valued model and the exact condition follow',
 'C122':'Model/Hmac is crypto/sha256 and crypto/hmac with their buffers, Spec/Hmac the two standards on whole messages; the invariant says that the state is the hash of all full blocks written so far and the buffer the rest (`write_after`). The function that mixes one block is shared by model and specification and checked against the published test values. Keys: `C122_block_iff` on the key as one block',
 'C123':'Model/FloatText computes the shortest digits with exact arithmetic, as strconv `roundShortest` does, and lays them out as `fmtE`, `fmtF` and the encoder of encoding/json do; Spec/FloatText is a reader of decimal notation and the nearest floating point number. Rounding is monotone (`round_mono`), so the numbers read as `q` are an interval; the search stops because a fraction with denominator 2^k has k decimals. Infinities, NaN and negative zero are left out, keys that are floats stay a parameter',
 'C124':'Spec/Message lists for every message the defect it names, by position in the file and without the order of the checks; every check is inverted (`checkX_error`), the converse is derived from C12 and C15. That later parts do not matter is `checkSteps_append`. Which of several defects of one step is named is not claimed',
 'C125':'Model/Alias expands a document while it follows aliases, with the library\'s check for those being followed; Spec/Alias says inductively what a document stands for. Completeness (`follow_complete`): an alias being followed cannot be met again below, since its least depth would be smaller than itself. Steps: C78 gives each field as a fold over the values of its key, and folds over concatenated entries are split. Anchors defined twice or used before they are defined are left out, as are aliases under keys that are not read',
 'C126':'Model/JsonText writes trees and reads texts by recursive descent; Spec/JsonText is the grammar as inductive relations between texts and trees. Soundness by induction on the bound of the reader, completeness on the derivation (a text of length n needs less than 2n+2 steps), so the reader decides the relation and the relation is a partial function. Writing: structural induction over the tree, numbers by C123, which also shows which floating point numbers are written without point and exponent (`C126_whole_iff`). All trees of `MarshalJSON` are of that form. Bytes: UTF-8 decoding inverts encoding. Not covered: bytes that are not UTF-8 (Go replaces them), the limit on depth, numbers of 2^1024 or more',
 'C127':'Additions, removals and exchanges follow from the exact conditions C12 and C15 and from how the order of dependencies splits over concatenated lists. Renaming and blindness are equalities of whole results, errors and panics included, by induction over the loops of Model/Lint',
 'C128':'A decoder reads the first character of a quoted command back whatever follows (`first_code`), so the end of the quoted command is found, the command behind it has known length, and the script is cancelled from the left. The log: lengths, since a character that cannot be printed shows as at least two',
 'C129':'`Spec/Unseen.lean` relates pipelines that differ at most in what is not looked at; every function of the compiler gives equal results on related arguments (`Proof/Unseen.lean`), by induction over the lists. The converse from C22 at each place of the list of steps',
 'C130':'`Spec.OwnLines` says by the line grammar of C01 which lines belong to documents; they are unique and are what the documents contain together (from C01). One more separator: induction over the lines in front of it. The example of a moved separator is read by the grammar of `Spec/Block`, for every parser that agrees with it',
 'C131':'`blanked` erases the places made for the values; each transform commutes with it (`about_public`), induction over the list of transforms. The compiler only appends files, so the credentials file can be cut out (`addSteps_pre`, `core_creds`)',
 'C132':'cases of the dispatcher; every converter ends in the printer, whose texts have no line `pipeline:` (C58)',
 'C133':'exact variables of a compiled step (`compiled_envs`, the loops as lookups) under those of the flags (C74), then the shell of C118 on the mounted script',
 'C134':'each check factors through what it looks at (`checkContainer_agree` etc.), induction over the lists; with C129 for the compile command',
 'C135':'the layout invariants of Proof/PrettyBlock carry the condition that no line behind the head begins with `version:` or `kind:`; documents with one such head each are found again in their concatenation (`docs_unique`)',
 'C136':'`Spec.renamed` exchanges the identifiers of a specification by a function on strings, without looking at the compiler; the theorem is a simulation between the two runs, function by function, carried through every transform of the library (`Spec.OtherIds`). `C136_build` is the version with build steps, where the image of a step and the alias of a built image hold an identifier; which image a step gets is C35. `C136_alpha` makes the exchange from two sources.',
 'C137':'`Spec.called` renames the containers of a pipeline, `Spec.calledSpec` those of a compiled specification; the theorems say that the linter and the compiler commute with the two, for every renaming that keeps \"clone\". By induction over the loops of both, and for the command over its transforms. What a name means to other containers at run time (host names of services) is outside the repository.',
 'C138':'`Spec.moved` renames the volumes of a pipeline, `Spec.movedSpec` those of a compiled specification, `Spec.calledR` the pipelines of a manifest; linter and compiler commute with them, by induction over their loops. `Spec.SameVerdict` compares answers of the linter without the text of an error, which quotes the name of a refused volume.',
 'C107':'each field of the decoded structure is computed separately by `fills_val`, from the fact that its key, and no other, touches it; `inline_val` does the same for the map of all other keys; refusals by `misfit`: whether a value fits does not depend on what was read before',
 'C108':'case analysis over the node; the truncation of the model (`Int.tdiv`) is characterised by inequalities (`truncated_iff`)',
 'C106':'the loops fail exactly at an empty entry (`mapAll_none`, `secretLoop_none`, `volumesLoop_none`), and what they build has no empty entries, so that C69 shows the printer does not fail either; for the matrix the number of rounds is computed (`permLoop_empty`)',
 'C105':'schedules are inductive; a complete schedule orders the graph, and in a finite closed graph without cycles the least unfinished node is ready (well-foundedness). For compiled pipelines a cycle lies among the services or among the steps, and the linter excludes the latter',
 'C104':'the short form of an image name is a list of parts over the grammar of C90, and replacing slashes in a joined list joins the parts by underscores; what a stage becomes is described with all its fields (`gitlab_pipeline`) and put into the exact rules of the linter (C12)',
 'C103':'by C85 the second text is printed of what the first one kept, and printing what is kept of a manifest in which nothing empty is listed is shown to write the same bytes (`print_kept`, part by part); the three converters are shown to list nothing empty',
 'C101':'case analysis on base, path and link; places are compared by following paths (`Spec.resolve`, C42); for Kubernetes the cleaned path has proper names only (`clean_shape`)',
 'C99':'field by field (`step`, `rt_container`, `rt_pipeline`), an omitted field is one that has its zero value; the kind by a projection of the decoders (`decFields_kind`); comparison up to case is a parameter with laws (`Spec.Folds`), floats by `F64.round_exact` and `F64.round_bits`',
 'C95':'what is read back survives again (`Proof/Resettle`); three rounds reach a fixed point of `keptManifest`; C84 for each round',
 'C93':'the reader inverts the writer, by induction over the value; sorted entries are determined by their set; existence by induction',
 'C92':'the text of a size as grammar; exact rational arithmetic with the float rounding of C86; the second formatting meets the same rounded number',
 'C91':'the loop of the matcher decides the meaning: induction on the length of the written pattern, with lemmas on cutting escaped text; literals separately; C62 instantiated',
 'C90':'the recognisers accept exactly the grammar; cutting a valid name; converse from a successful parse',
}
for k in ['C36','C40','C41']: pass
rows=['| id | property | status | module | proof |','|---|---|---|---|---|']
for c in m['claims']:
    mods=sorted({mod.get(t.replace('Drone.',''),'') for t in c['theorems']}-{''})
    rows.append(f"| {c['property']} | {p[c['property']]['title']} | {c['status']} | {', '.join(mods)} | {how.get(c['property'],'')} |")
notes='\n\nWhat partial claims miss:\n\n'+'\n'.join(f"* {c['property']}: {c['note']}" for c in m['claims'] if c['status']=='partial')+'\n'
open('DESIGN.md','w').write(head+'\n'.join(rows)+notes+tail)
miss=[c['property'] for c in m['claims'] if c['property'] not in how]
print(miss)
