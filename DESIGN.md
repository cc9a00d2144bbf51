# Formal model of drone/drone-yaml in Lean 4

## Layout

* `lean/Verif/Model/*` is the executable model, one file per Go package or group of files. Every definition cites the Go file and lines it models and says where it simplifies.
* `lean/Verif/Spec/*` holds small declarative specifications that the theorem statements use and the model does not.
* `lean/Verif/Proof/*` holds helper lemmas.
* `lean/Verif/Props/*` holds the property theorems named in MANIFEST.json. Beside each stands an example that meets its hypotheses.
* `properties.jsonl` lists the properties, `MANIFEST.json` their status and theorems, `AXIOMS.md` the axioms of every theorem (written by `tools/axioms.py`).
* `seeded/LOG.jsonl` is the log of wrong programs tried against the theorems. `tools/mutate.py` edits a scratch copy of the model and rebuilds, `tools/log_mutations.py` writes the log lines.

A theorem named `Cnn_…` belongs to property Cnn. The suffix `_partial` marks a theorem that proves less than the property says. A property that the code does not have is refuted by a theorem (see Findings), and its claim is `partial` with what does hold.

## Modelling conventions

* A Go `string` is a Lean `String`, that is valid UTF-8 text. File contents, MAC inputs and printed files are `List UInt8`. Image names are `List Char` inside `Model/Image.lean`.
* A Go map is an association list (`GoMap`) whose list order is the arbitrary iteration order. Order independence is always a theorem about permutations. Where the code ranges over a map it built itself, the order is a separate parameter.
* A nil pointer in a list or map is `none`. A panic (nil dereference, write to a nil map, division by zero) is the outcome `none`. An error is `Except.error`.
* `int` and `int64` are unbounded `Int`, except in the matrix (C59), where the overflow of `int` is part of the model. `float64` is the rational it stands for. The one arithmetic operation on floats (`toCPUMillis`) is rounded as IEEE 754 binary64 prescribes (`Model/Float64.lean`).
* `rand.String()` in the compiler draws from an arbitrary numbered supply; uniqueness theorems assume that the supply has no repetitions. `rand.String` itself is modelled over byte streams (C45).
* Callbacks (`SkipFunc`, `PrivilegedFunc`, `TransformFunc`, `SecretFunc`, …) are arbitrary functions.

## Libraries outside /repo

| library | how it enters |
|---|---|
| YAML parser (text to tree) | never modelled. Signing and file splitting take an arbitrary decoder. C84 and C85 quantify over every parser that agrees with the small block grammar of `Spec/Block.lean` (`parser_exists` shows there is one) |
| YAML decoder (tree to Go values) | `Model/Node.lean`, from the published behaviour of yaml.v2: struct tags, collected type errors, scalar conversions. **Trusted** by C21, C77–C85 |
| YAML encoder for settings, JSON | parameters of the compiler; `Model/Encode.lean` models `encodeSlice`, `encodeMap`, `YAMLToJSON` and the JSON encoder from their published sources, with marshalling and reading of YAML taken to be inverse and the texts of floats as parameters; `Model/FloatText.lean` models these texts from the published sources of strconv and encoding/json. **Trusted** by C93 and C123 |
| doublestar | a parameter (`Glob`) of the conditions, so that C18–C20 and C62 hold of every matcher; C62 needs two laws (`GlobLaws`). `Model/Glob.lean` models `doublestar.Match` of v1.1.1 from its published source; C91 shows what it means and `C91_laws` that it obeys the laws. **Trusted** by C91 |
| `path.Match`, `filepath.Match` | a parameter of the converter; `Model/PathMatch.lean` models `path.Match` from its published source, over characters. **Trusted** by C117 |
| docker `reference` | `Model/Image.lean`, from its published source. **Trusted** by C43, C44, C90. `digest.Parse` is a parameter with laws (`DigestLib`, met by `shaDigests`) |
| HMAC-SHA256 | a parameter of the signer, some theorems assume 32 byte results; `Model/Hmac.lean` models crypto/sha256, crypto/hmac and crypto/subtle from their published sources, `C122_sign`, `C122_verify` and `C122_length` connect the two. **Trusted** by C122 |
| hex, base64, `%q` (posix), `path.Clean/Join`, `bufio.Scanner` | modelled concretely; C37 proves base64 decodes back, C42 that cleaned paths are clean |
| `strings.ToUpper`, `unicode.IsPrint`, float formatting, `url.Parse` | parameters |
| go-units (`RAMInBytes`, `BytesSize`) | parameters of the decoder and the printer; `Model/Units.lean` models v0.3.3 from its published source, with correctly rounded `ParseFloat` and `%.4g`. **Trusted** by C92 |
| kingpin (command line parsing) | not modelled: a command gets its flag values |
| regexp (`pipeline:` line of legacy files) | specified by lines (`PipelineLine`) |

## What is modelled

| Go | Lean |
|---|---|
| yaml/parse.go, manifest.go (kinds) | Model/ParseRaw |
| yaml/*.go data types | Model/Types |
| yaml/*.go `UnmarshalYAML`, `MarshalYAML`, struct tags | Model/Decode over Model/Node |
| yaml/manifest.go `Encode`, `MarshalYAML`, `omitempty` | Model/Marshal |
| yaml/manifest.go `MarshalJSON`, `UnmarshalJSON`, `json` tags | Model/ManifestJson, Model/JsonText |
| yaml/cond.go, compiler/skip.go, run policy | Model/Cond |
| yaml/linter, `Validate` methods | Model/Lint |
| yaml/signer | Model/Signer, Model/SignTree, Model/Hmac |
| yaml/compiler: compiler, step, clone, convert, encode, workspace, setupScript | Model/Compile, Model/Path, Model/Float64, Model/Encode, Model/FloatText |
| yaml/compiler/script_posix.go, script_win.go | Model/Script |
| yaml/compiler/image, dind.go | Model/Image, Model/Dind |
| yaml/compiler/internal/rand | Model/Rand |
| yaml/compiler/transform | Model/Transform |
| engine types of drone-runtime | Model/Engine (only the fields the code reads or writes) |
| yaml/pretty | Model/Pretty |
| yaml/converter: dispatcher, gitlab, bitbucket | Model/Convert, Model/DecodeConvert |
| yaml/converter/legacy, legacy/matrix | Model/Legacy, Model/Matrix, Model/MatrixTree, Model/DecodeConvert |
| main.go | Model/Cli |
| `append` on shared arrays (gitlab/convert.go:48-52, compiler.go:181 and 220) | Model/Slices |

Not modelled: yaml/converter/circleci (type declarations that nothing uses), error message texts where no caller looks at them, JSON texts that are not UTF-8 or nest deeper than Go permits, the order of keys of maps in JSON (lists that stand for maps are taken to be sorted), the text that the YAML encoder writes for a tree (C97 quantifies over it), nulls spelled `Null` or `NULL` (trees have one kind of null, the one written `null`, `~` or nothing; the library calls the decoders of /repo for the other two spellings and gives them an empty value), anchors defined twice, used before they are defined, or used under keys that are not read (C125 covers the others; everywhere else trees have aliases expanded), timestamps and binary scalars in YAML trees, strict decoding, NaN and infinities, partial writes of files (read errors: C116), concurrent use, command line parsing.

## Specifications

* `Spec/Lines` lines of a byte stream and the documents they make up (C01, C02).
* `Spec/Graph` acyclicity by paths (C13, C15, C26).
* `Spec/Schedule` orders in which the nodes of a graph may run (C105).
* `Spec/Sources` what containers a pipeline consists of, before compiling (C22–C41, C86–C88).
* `Spec/Tree` reading scalars and keys off a YAML tree (C77, C78).
* `Spec/Yaml` what a YAML reader makes of plain and double-quoted scalars (C55, C68).
* `Spec/Block` a block grammar with unique readings (C84, C85).
* `Spec/Kept` what formatting keeps of a manifest (C84, C85).
* `Spec/PathMatch` the grammar and the meaning of the patterns of `path.Match` (C117).
* `Spec/Shell` a POSIX shell for the lines that generated scripts consist of, with the commands of the user as a parameter (C118). It stands for the shell of the container and is part of what C118 trusts.
* `Spec/BlockText` a simple way to write a tree as a block text; it shows that a library as assumed exists (C97, C98).
* `Spec/Retag` trees that are equal except that texts may be read as something else than strings (C98, C111).
* `Spec/Hmac` SHA-256 and HMAC of whole messages (C122).
* `Spec/FloatText` a reader of decimal numbers, the number of digits a number needs (C123).
* `Spec/Message` what each message of the linter says (C124).
* `Spec/Alias` what a document with anchors stands for, as an inductive relation (C125).
* `Spec/JsonText` the grammar of JSON and what a text stands for (C126).
* `Spec/Unseen` which pipelines differ only in what does not count (C129).
* `Spec/Power` PowerShell for the statements that generated scripts consist of, likewise (C119).
* `Spec/ImageName` the grammar of image names, their full and short form (C90).
* `Spec/Glob` the grammar and the meaning of patterns (C91).
* `Spec/Units` the grammar of sizes (C92).
* `Spec/Json` a JSON reader, and the JSON value that stands for a setting (C93).
* `Spec/Stored` what `Encode` keeps of a manifest (C97).
* `Spec/ManifestJson` doubles, settings with their numbers as doubles, comparison of keys up to case (C99).
* `Spec/Fill` texts with references, and a pipeline with all its strings mapped (C98).
* Small specifications used by one property stand in `namespace Drone.Spec` in its Props file.

## Per property

| id | property | status | module | proof |
|---|---|---|---|---|
| C01 | Document splitting is line exact | proved | Parse | scanner and splitter as a state machine; induction over lines against `Spec/Lines` |
| C02 | Splitting is stable under re-emission | proved | Parse | scanner and splitter as a state machine; induction over lines against `Spec/Lines` |
| C03 | Parse is all or nothing and keeps order | proved | Parse | induction over documents, arbitrary decoder |
| C04 | Kind decides the resource type, identically for YAML and JSON | proved | Parse | induction over documents, arbitrary decoder |
| C05 | A file signed with a key verifies with that key | proved | Signer | C02 and list algebra over an arbitrary MAC and decoder |
| C06 | Signing is idempotent and leaves exactly one signature | proved | Signer | C02 and list algebra over an arbitrary MAC and decoder |
| C07 | Signature documents are not part of the signed content | proved | Signer | C02 and list algebra over an arbitrary MAC and decoder |
| C08 | Verify accepts exactly the correct MAC | proved | Signer | C02 and list algebra over an arbitrary MAC and decoder |
| C09 | Verified content cannot be altered | partial | Signer | C02 and list algebra over an arbitrary MAC and decoder |
| C10 | Short keys never sign or verify | proved | Signer | C02 and list algebra over an arbitrary MAC and decoder |
| C11 | Sign then WriteTo equals SignUpdate | proved | Signer | C02 and list algebra over an arbitrary MAC and decoder |
| C12 | The linter accepts exactly the documented pipelines | proved | Lint | acceptance as an iff with an independent rule set, induction over containers |
| C13 | Accepted step dependencies form an acyclic graph | proved | Lint | rank argument: every accepted dependency points backwards |
| C14 | Accepted pipelines have unique container names | proved | Lint | induction |
| C15 | Accepted manifests have an acyclic pipeline graph | proved | Lint | rank argument |
| C16 | Trust only widens what is accepted | proved | Lint | monotone in the trust flag |
| C17 | Non-pipeline resources are validated by content only | proved | Lint | case analysis |
| C18 | Exclusion wins, inclusion is required when present | proved | Cond | arbitrary glob matcher |
| C19 | A step is skipped iff some condition fails | proved | Cond | iff over the list of conditions |
| C20 | Run policy follows the status condition | proved | Cond | case analysis |
| C21 | Short and long YAML forms mean the same | proved | Decode, DecodeConvert | decoding and encoding over `Model/Node` |
| C22 | Compiled steps are the clone step, services and steps in order | proved | Compile | refinement: a successful compilation is described container by container (`Proof/Compiled`), the property is a corollary |
| C23 | Services are always detached | proved | Compile | refinement: a successful compilation is described container by container (`Proof/Compiled`), the property is a corollary |
| C24 | Skipped containers never run, and only they | proved | Compile | refinement: a successful compilation is described container by container (`Proof/Compiled`), the property is a corollary |
| C25 | Dependency graph of the compiled pipeline | proved | Compile | refinement: a successful compilation is described container by container (`Proof/Compiled`), the property is a corollary |
| C26 | A linted pipeline compiles to an acyclic, closed graph | proved | Compile | rank argument on the compiled graph |
| C27 | Privileged mode is granted only on request | proved | Compile | refinement: a successful compilation is described container by container (`Proof/Compiled`), the property is a corollary |
| C28 | The docker socket is confined to build steps | partial | Exact, Volumes | refinement: a successful compilation is described container by container (`Proof/Compiled`), the property is a corollary |
| C29 | Untrusted pipelines never reach the host | proved | Volumes | refinement: a successful compilation is described container by container (`Proof/Compiled`), the property is a corollary |
| C30 | Secrets are never compiled to plaintext variables | proved | Envs | refinement: a successful compilation is described container by container (`Proof/Compiled`), the property is a corollary |
| C31 | Workspace variables cannot be spoofed | proved | Volumes | refinement: a successful compilation is described container by container (`Proof/Compiled`), the property is a corollary |
| C32 | Identifiers are unique and the namespace is shared | partial | Volumes | refinement: a successful compilation is described container by container (`Proof/Compiled`), the property is a corollary |
| C33 | Working directory rule | partial | Volumes | refinement: a successful compilation is described container by container (`Proof/Compiled`), the property is a corollary |
| C34 | Compilation does not depend on map order | partial | Envs, Exact | refinement: a successful compilation is described container by container (`Proof/Compiled`), the property is a corollary |
| C35 | References to built images are redirected consistently | proved | Rename | invariant of the rename map |
| C36 | Git credentials are given to the clone step only | partial | Exact, Files | refinement: a successful compilation is described container by container (`Proof/Compiled`), the property is a corollary |
| C37 | The generated script runs the commands verbatim in order | proved | Script | base64 decoding inverse, script text by induction over commands |
| C38 | Tracing a command does not execute it | partial | Script | independent reading of double-quoted shell text, iff |
| C39 | A linted pipeline compiles without panicking | partial | Files | exact condition for success (iff) |
| C40 | Every file mount resolves | proved | Files | refinement: a successful compilation is described container by container (`Proof/Compiled`), the property is a corollary |
| C41 | Every container shares the workspace volume | proved | Files | refinement: a successful compilation is described container by container (`Proof/Compiled`), the property is a corollary |
| C42 | Workspace path is clean and rooted | proved | Path | normal form of paths, induction over segments |
| C43 | Image expansion and matching laws | proved | Image | a parsed reference prints to a string that parses to itself |
| C44 | Privileged whitelisting | proved | Image | iff |
| C45 | Random identifiers | proved | Rand | induction over the byte stream, table of 256 bytes |
| C46 | Include, Exclude and ResumeAt select steps | proved | Transform | map lookups, permutation invariance |
| C47 | Environment transforms | proved | Transform | map lookups, permutation invariance |
| C48 | Labels, limits, networks and registry credentials | partial | Transform | map lookups, permutation invariance |
| C49 | Secret resolution requests exactly what is needed | proved | Transform | callback with memory, trace of requests |
| C50 | Global volumes are mounted everywhere | proved | Transform | map lookups, permutation invariance |
| C51 | Combined transforms run in order | proved | Transform | fold |
| C52 | Printed manifests frame their documents | proved | Pretty | writer invariants on bytes |
| C53 | Printing does not depend on map order | proved | PrettyOrder | sortedness determines the printed order |
| C54 | Indentation and zero mode are balanced | proved | Pretty | balance invariant of the writer |
| C55 | Quoted scalars read back exactly | proved | Quote | independent double-quoted reader |
| C56 | Secret data is chunked without loss | proved | Pretty | induction over chunks |
| C57 | Files that need no conversion are returned unchanged | proved | Convert | line specification of the regular expression |
| C58 | Conversion is idempotent | proved | Convert | no printed manifest has a matching line |
| C59 | The build matrix is the Cartesian product | proved | Matrix | mixed radix argument |
| C60 | Converted legacy volumes resolve | partial | Legacy | induction over the converted lists |
| C61 | Converted legacy steps have unique names | partial | Exact, Legacy | induction over the converted lists |
| C62 | Legacy branch filters become equivalent ref triggers | proved | Trigger | induction over the converted lists |
| C63 | GitLab stages become a dependency chain | proved | Foreign | induction over the converted lists |
| C64 | Bitbucket pipeline selection | proved | Foreign | induction over the converted lists |
| C65 | The command line saves what it prints | partial | Cli | case analysis on commands, effects as values |
| C66 | Compile command picks the requested pipeline | proved | Cli | iff with a separate selection |
| C67 | Tracing a command on Windows does not execute it | partial | Exact, Script | independent reading of PowerShell text |
| C68 | Plain scalars read back as the same string | partial | Exact, Quote | independent plain scalar reader |
| C69 | Printing panics exactly on nil entries | proved | PrettyNil | iff by induction over the printed values |
| C70 | Matrix conditions select steps per axis | partial | LegacySteps | induction over the converted lists |
| C71 | Legacy containers are converted one to one | proved | LegacySteps | induction over the converted lists |
| C72 | One pipeline per matrix axis | proved | LegacySteps | induction over the converted lists |
| C73 | Legacy conversion does not depend on map order | proved | LegacyOrder | permutation invariance |
| C74 | The compile command applies its flags to every step | proved | Cli | map lookups through the whole command |
| C75 | sign --save and verify agree | proved | Cli | C05 and the command model |
| C76 | What the lint command accepts | proved | Cli | C12 and the command model |
| C77 | Conditions are read in full | partial | Decode | decoding over `Model/Node` |
| C78 | Keys fill their own fields | proved | Decode | decoding over `Model/Node` |
| C79 | Legacy string forms mean their map forms | proved | DecodeConvert | decoding over `Model/Node` |
| C80 | Legacy constraints accept scalars and lists alike | proved | DecodeConvert | decoding over `Model/Node` |
| C81 | GitLab job settings take effect | partial | DecodeConvert | decoding over `Model/Node` |
| C82 | Legacy scalars keep their text | partial | DecodeConvert | decoding over `Model/Node` |
| C83 | Bitbucket stages are converted or refused | partial | DecodeConvert, Exact | decoding over `Model/Node` |
| C84 | Formatting keeps the meaning of a file | partial | ReadBack, Readable | the printer writes the block grammar, the grammar has unique readings, decoding the reading gives `keptManifest` |
| C85 | Formatting twice is formatting once | partial | ReadBack | C84 twice |
| C86 | Failure, pull and resource settings reach the compiled step | partial | Attr | refinement as for C22; rounding bounds in `Proof/Float64` |
| C87 | Variables and settings reach the compiled step | proved | Attr | refinement as for C22 |
| C88 | Build and clone sections reach their steps | proved | Attr | refinement as for C22 |
| C89 | The transform callback sees the whole result | proved | Attr | the transform is applied last |
| C90 | Expanding and trimming an image name is determined by its grammar | proved | ImageName | the recognisers accept exactly the grammar; cutting a valid name; converse from a successful parse |
| C91 | The patterns of conditions mean what their grammar says | proved | Glob | the loop of the matcher decides the meaning: induction on the length of the written pattern, with lemmas on cutting escaped text; literals separately; C62 instantiated |
| C92 | Sizes mean what they say and survive formatting up to four digits | proved | Limits, Units | the text of a size as grammar; exact rational arithmetic with the float rounding of C86; the second formatting meets the same rounded number |
| C93 | The variable of a setting stands for its value | proved | Encode | the reader inverts the writer, by induction over the value; sorted entries are determined by their set; existence by induction |
| C94 | Formatting a valid file changes neither its validity nor what is run | partial | Effect | C84, and compilation of containers that agree in what the compiler looks at (`Proof/Alike`), through all transforms |
| C95 | Formatting settles | partial | Settle | what is read back survives again (`Proof/Resettle`); three rounds reach a fixed point of `keptManifest`; C84 for each round |
| C96 | Signing a formatted file gives a formatted file that verifies | partial | Resign | the documents of a printed file are the texts printed for its resources one by one (C52), and the text of the signer is the text printed for a signature; C84 and C85 give what is read back |
| C97 | Encoding a manifest and parsing it gives the manifest back | partial | BlockText, Resolved, Stored | the tree of every struct is decoded back field by field (`rt_*` in Proof/Marshal); what decoding gives meets the conditions (`parsed_storable`); that there is a library as asked is shown by a writer of block texts (Spec/BlockText) whose text is read as the tree (`blockText_reads`) |
| C98 | The pipelines of a build matrix | partial | MatrixText, MatrixTree | encoding commutes with mapping strings (`map_pipeline`), and what is encoded is decoded into the old pipeline (`rt_pipeline_into`, C97); replacement of references in texts is `substitute_pieces`; a block text with values put in is read as the tree with the values in its strings (`reads_filled`, line by line and scalar by scalar), and decoding a pipeline does not see whether strings outside of settings are read as numbers (`blind_pipeline`) |
| C99 | Manifests as JSON | proved | ManifestJson | field by field (`step`, `rt_container`, `rt_pipeline`), an omitted field is one that has its zero value; the kind by a projection of the decoders (`decFields_kind`); comparison up to case is a parameter with laws (`Spec.Folds`), floats by `F64.round_exact` and `F64.round_bits` |
| C100 | Converted files run the original scripts | partial | ConvertRun | the converters set few fields (`SimplePipeline`), so that formatting and parsing gives the same pipelines (`simple_readBack`, from C84); the scripts by C63, C64, C40 and C37. Missing: strings outside `Readable` and lines of 64 KiB, as for C84 |
| C101 | Where a converted legacy pipeline runs | proved | LegacyPlace | case analysis on base, path and link; places are compared by following paths (`Spec.resolve`, C42); for Kubernetes the cleaned path has proper names only (`clean_shape`) |
| C102 | What a converted legacy file means | partial | LegacyRun | composition of C71, C60, C84, C87, C40 and C22: the strings of converted containers are shown readable, what is read back of each is computed (`toPipeline_read`), and the parsed pipeline is compiled |
| C103 | Converted files are already formatted | partial | Formatted | by C85 the second text is printed of what the first one kept, and printing what is kept of a manifest in which nothing empty is listed is shown to write the same bytes (`print_kept`, part by part); the three converters are shown to list nothing empty |
| C104 | Names of converted GitLab services, and which converted GitLab files pass the linter | proved | ServiceName | the short form of an image name is a list of parts over the grammar of C90, and replacing slashes in a joined list joins the parts by underscores; what a stage becomes is described with all its fields (`gitlab_pipeline`) and put into the exact rules of the linter (C12) |
| C105 | An accepted pipeline can be run to the end | proved | Schedule | schedules are inductive; a complete schedule orders the graph, and in a finite closed graph without cycles the least unfinished node is ready (well-foundedness). For compiled pipelines a cycle lies among the services or among the steps, and the linter excludes the latter |
| C106 | Which files crash the converters | proved | Crash | the loops fail exactly at an empty entry (`mapAll_none`, `secretLoop_none`, `volumesLoop_none`), and what they build has no empty entries, so that C69 shows the printer does not fail either; for the matrix the number of rounds is computed (`permLoop_empty`) |
| C107 | Foreign files: every key fills its own field | proved | ForeignKeys | each field of the decoded structure is computed separately by `fills_val`, from the fact that its key, and no other, touches it; `inline_val` does the same for the map of all other keys; refusals by `misfit`: whether a value fits does not depend on what was read before |
| C108 | What is accepted as a number, a truth value, a text or a size | proved | Scalars | case analysis over the node; the truncation of the model (`Int.tdiv`) is characterised by inequalities (`truncated_iff`) |
| C109 | Which converted legacy and Bitbucket files the linter accepts | proved | LegacyLint | the converted containers have no builds, ports, devices or dependencies, so that C12 reduces to names, images and trust (`lint_simple`); the renaming loop computes the only list with `Renamed`, and an axis changes neither emptiness nor the names of volumes (`Replaces`) |
| C110 | What stands behind a line of 64 KiB or a terminator is dropped by all commands alike | proved | LongLines | the line reader stops at the first long line, and the splitter at a terminator, so that the documents are those of the part before (`C110_documents`); commands are functions of what they parse |
| C111 | What a converted legacy file with a build matrix means when it is run | partial | MatrixRun | C98 gives the pipelines of the axes, C84 that they are read back, C71 and C60 where their containers come from (the same file without its matrix), C87 and C72 what is run; `C111_example` has two axes |
| C112 | Which JSON is read as a manifest, and as what | proved | JsonShape | `Spec.Shape` is a table of all types with their JSON names, saying which trees fit and what they tell; a decoder is `Sound` for a shape, and this is kept by lists, maps, pointers and structs (`sound_obj`: fields do not disturb each other); `Clear` shows that a tree tells one value only |
| C113 | Which transforms may change places | proved | TransformOrder | `Spec.About` sorts the transforms by what they are about and `Spec.Apart` says which aspects are independent; every transform is brought into one of nine forms (`Order.Form`), the forms commute, and permutations follow by induction; `C113_apart_exact` gives a counterexample for every pair that is not `Apart` |
| C114 | Which YAML is read as a manifest, and as what | proved | YamlForm | `Spec.Form` is a table of all types with their YAML keys, saying which trees fit and what they tell; a decoder is `Faithful` to a form, and this is kept by lists, maps, pointers, short forms and structs (`reads_obj`; nested anonymous structs by `LineReads.group`); `Clear` shows that a tree tells one value only; documents by C03 |
| C115 | Which foreign files are read, and as what | proved | ForeignForm | the forms of C114 extended by structs that collect unknown keys (`Form.wide`, `reads_wide`), by sections rewritten before they are read (`Rewritten`) and by the short forms of each format; `Faithful` and `Clear` again; the refusals by running `convert` on decoders given by trees (`onTrees`) |
| C116 | Parsing does not depend on how the bytes arrive | proved | Scanner | `Model/Scanner.lean` is bufio.Scanner read by read, with its buffer; invariant of `scan_takes`: the pending bytes followed by the content of the reader are what is left of the stream, and a call takes one line of it (`fill_some`, `fill_none`); the loop by induction on the number of rounds, which a bound on the reads and bytes to come shows to be enough |
| C117 | Patterns of a Bitbucket file | proved | PathMatch | `Model/PathMatch.lean` is path.Match of the Go library, over characters; the language of the patterns is given inductively (`Spec/PathMatch.lean`: `Text`, `Names`); soundness by induction on the rounds; completeness because a chunk found too early leaves the star behind it no slash to skip: the slashes of a chunk are counted by its parts (`exchange`) |
| C118 | What a shell does with the script of a step | proved | Shell | `Spec/Shell.lean` is a shell that reads a script line by line, with the behaviour of the commands as a parameter; `head_run` runs the fixed lines on an arbitrary state, `commands_run` is an induction on the commands; the trace lines by C38; C118_credentials is an equality of runs from two states |
| C119 | What PowerShell does with the script of a step | proved | Power | `Spec/Power.lean` reads a script character by character into statements and runs them, with the behaviour of the commands as a parameter; reading is a fold that does not depend on earlier statements (`foldl_push`), so the fixed parts are computed once and commands are an induction; C119_apostrophe follows the mode of the reader |
| C120 | A container compiles by itself | proved | Local | the field lemmas of compiled steps (`Common`, `PlainFacts`, `BuildFacts`) name everything a step is made of; two steps of one container agree in all of it except identifiers, rename table and the serial flag, and a rename table without a match leaves the image alone |
| C121 | Shared arrays are not overwritten | proved |  | a model of arrays and slices (Model/Slices) with `append` for every growth policy; the two places that append to a list they did not make are modelled on it. GitLab: a list that is full or lies in a new array cannot disturb old arrays. Compile: an exact description of the cells that change, from which both the refinement to the list-valued model and the exact condition follow |
| C122 | The signature is the HMAC-SHA256 of the documents, and which keys are the same key | proved |  | Model/Hmac is crypto/sha256 and crypto/hmac with their buffers, Spec/Hmac the two standards on whole messages; the invariant says that the state is the hash of all full blocks written so far and the buffer the rest (`write_after`). The function that mixes one block is shared by model and specification and checked against the published test values. Keys: `C122_block_iff` on the key as one block |
| C123 | Floating point numbers in settings and limits keep their value in the texts written for them | proved | FloatText, FloatUse, Limits | Model/FloatText computes the shortest digits with exact arithmetic, as strconv `roundShortest` does, and lays them out as `fmtE`, `fmtF` and the encoder of encoding/json do; Spec/FloatText is a reader of decimal notation and the nearest floating point number. Rounding is monotone (`round_mono`), so the numbers read as `q` are an interval; the search stops because a fraction with denominator 2^k has k decimals. Infinities, NaN and negative zero are left out, keys that are floats stay a parameter |
| C124 | What the linter says is true, and it is said of the first defect | proved | Message, MessageCli | Spec/Message lists for every message the defect it names, by position in the file and without the order of the checks; every check is inverted (`checkX_error`), the converse is derived from C12 and C15. That later parts do not matter is `checkSteps_append`. Which of several defects of one step is named is not claimed |
| C125 | Anchors, aliases and merge keys mean what they stand for | proved | Alias, Merge | Model/Alias expands a document while it follows aliases, with the library's check for those being followed; Spec/Alias says inductively what a document stands for. Completeness (`follow_complete`): an alias being followed cannot be met again below, since its least depth would be smaller than itself. Steps: C78 gives each field as a fold over the values of its key, and folds over concatenated entries are split. Anchors defined twice or used before they are defined are left out, as are aliases under keys that are not read |
| C126 | Manifests survive as JSON texts, which are read as the grammar says | proved | JsonText | Model/JsonText writes trees and reads texts by recursive descent; Spec/JsonText is the grammar as inductive relations between texts and trees. Soundness by induction on the bound of the reader, completeness on the derivation (a text of length n needs less than 2n+2 steps), so the reader decides the relation and the relation is a partial function. Writing: structural induction over the tree, numbers by C123, which also shows which floating point numbers are written without point and exponent (`C126_whole_iff`). All trees of `MarshalJSON` are of that form. Bytes: UTF-8 decoding inverts encoding. Not covered: bytes that are not UTF-8 (Go replaces them), the limit on depth, numbers of 2^1024 or more |
| C127 | What small changes to a file do to its validity | proved | Edits | Additions, removals and exchanges follow from the exact conditions C12 and C15 and from how the order of dependencies splits over concatenated lists. Renaming and blindness are equalities of whole results, errors and panics included, by induction over the loops of Model/Lint |
| C128 | The script of a step determines its commands, its log only those that can be printed | proved | ScriptText | A decoder reads the first character of a quoted command back whatever follows (`first_code`), so the end of the quoted command is found, the command behind it has known length, and the script is cancelled from the left. The log: lengths, since a character that cannot be printed shows as at least two |
| C129 | What the compiler does not look at | proved | Unseen | `Spec/Unseen.lean` relates pipelines that differ at most in what is not looked at; every function of the compiler gives equal results on related arguments (`Proof/Unseen.lean`), by induction over the lists. The converse from C22 at each place of the list of steps |
| C130 | What may be changed in a signed file without the key | proved | Regroup | `Spec.OwnLines` says by the line grammar of C01 which lines belong to documents; they are unique and are what the documents contain together (from C01). One more separator: induction over the lines in front of it. The example of a moved separator is read by the grammar of `Spec/Block`, for every parser that agrees with it |
| C131 | Where the values of secrets and credentials end up | proved | Confine | `blanked` erases the places made for the values; each transform commutes with it (`about_public`), induction over the list of transforms. The compiler only appends files, so the credentials file can be cut out (`addSteps_pre`, `core_creds`) |
| C132 | What the converter converts, in both builds and from the command line | proved | Builds | cases of the dispatcher; every converter ends in the printer, whose texts have no line `pipeline:` (C58) |
| C133 | Which variables the commands of a step see | proved | Seen | exact variables of a compiled step (`compiled_envs`, the loops as lookups) under those of the flags (C74), then the shell of C118 on the mounted script |
| C134 | What the linter does not look at | proved | Unlinted | each check factors through what it looks at (`checkContainer_agree` etc.), induction over the lists; with C129 for the compile command |
| C135 | The signature of a formatted file fixes all of it | proved | Sealed | the layout invariants of Proof/PrettyBlock carry the condition that no line behind the head begins with `version:` or `kind:`; documents with one such head each are found again in their concatenation (`docs_unique`) |
| C136 | Random identifiers are only names | proved | Renamed | `Spec.renamed` exchanges the identifiers of a specification by a function on strings, without looking at the compiler; the theorem is a simulation between the two runs, function by function, carried through every transform of the library (`Spec.OtherIds`). `C136_build` is the version with build steps, where the image of a step and the alias of a built image hold an identifier; which image a step gets is C35. `C136_alpha` makes the exchange from two sources. |
| C137 | Step names are only names | proved | StepNames | `Spec.called` renames the containers of a pipeline, `Spec.calledSpec` those of a compiled specification; the theorems say that the linter and the compiler commute with the two, for every renaming that keeps "clone". By induction over the loops of both, and for the command over its transforms. What a name means to other containers at run time (host names of services) is outside the repository. |
| C138 | Names of volumes and of pipelines are only names | proved | VolumeNames | `Spec.moved` renames the volumes of a pipeline, `Spec.movedSpec` those of a compiled specification, `Spec.calledR` the pipelines of a manifest; linter and compiler commute with them, by induction over their loops. `Spec.SameVerdict` compares answers of the linter without the text of an error, which quotes the name of a refused volume. |

What partial claims miss:

* C09: C09_same_mac: for every MAC the contents of two verified files with the same signature value have the same MAC. So the concatenated content is fixed unless the two contents are a collision, and the document itself when there is one per file. Missing: document boundaries; C09_boundaries_not_signed refutes them for every MAC.
* C28: Mount and volume clauses proved in full. The image clause is false in general: a build step whose section names the image drone/docker redirects every build step (C28_socket_hijack); proved when no build section names drone/docker. C28_socket_image_iff: that condition is exact.
* C32: UID distinctness proved in full. The namespace clause is proved for everything except the volume of the host workspace callback, which the code leaves without a namespace (C32_host_volume_namespace).
* C33: Proved as stated for clone and pipeline steps; a service keeps its working directory only if it is also declared detached, because the rule reads the source flag (C33_service_workdir_lost).
* C34: Proved unless two plain settings of a container give different texts to the same variable. In that case the claim is false for that pipeline (C34_collision; C34_setting_collision is a case), so the condition is exact for containers that are not build steps.
* C36: The mount clause holds for every pipeline. The file clause is proved unless a container with commands is named .git-credentials, which the linter accepts and which makes that container mount the credentials (C36_name_clash). C36_mounts_iff and C36_files_exact say exactly which containers see which file of that name, for every pipeline.
* C38: Proved for commands without a backquote; C38_trace_iff shows that with a backquote the claim is false, C38_backquote is a case.
* C39: Proved in full for pipelines accepted as untrusted; C39_compile_iff is the exact condition. For trusted pipelines null ports have to be excluded (C39_null_port).
* C48: labels: proved whenever all label maps exist; the full claim is false because WithLables panics on the volume of CreateHostWorkspace (C48_labels_panic is the exact condition); limits, networks, credentials complete
* C60: Volume clauses proved in full; mounts proved for pipeline steps and services. Missing, because false (C60_clone_volume): mounts of clone containers. Files without a matrix; for files with one see C109_axis_mounts and C111.
* C61: Proved unless a given name equals the suffixed name of another step; otherwise false (C61_clash). Files without a matrix; for files with one C109_axis is the exact condition. C61_names_iff is the exact condition.
* C65: fmt and sign as stated; every failing command leaves all files and outputs untouched. convert: the claim is false, C65_convert_save_ignored proves that convert --save never writes (line 117 of main.go tests fmt's flag); C65_convert_partial is what holds.
* C67: Proved for commands without single quotes (including the typographic ones PowerShell accepts); with one the claim is false (C67_quote). The condition is exact (C67_trace_iff); the literal ends in the right place iff the quotes come in pairs (C67_ends_iff).
* C68: Proved unless the string starts with & or !, is a lone - or ?, or has a character YAML does not accept as it is; these exceptions are real (C68_exceptions). The type is not kept: C68_types_lost. The list of exceptions is exact (C68_plain_iff).
* C70: C70_copies is the exact result. The claim is proved for conditions with at most one entry; with more it is false (C70_or): one satisfied entry is enough and two give two copies.
* C77: Documented forms proved. The last clause is false: include or exclude given as a scalar is silently dropped and the condition matches everything (C77_include_ignored, C77_parts_ignored). C77_read_iff is the exact condition for every node.
* C81: Image clause proved. The allow_failure clause is false: the field has no YAML tag, so the key is allowfailure and allow_failure is ignored (C81_allow_failure_ignored).
* C82: Proved for strings (C82_environment_partial with legacyText). False for numbers and Booleans: they are decoded and written anew, 1.10 and 1.1 become the same (C82_spelling_lost).
* C83: Order of steps proved. The second clause is false: an entry without step, such as parallel, decodes to a nil step and the converter panics (C83_parallel_panics). C83_panics_iff is the exact condition for a panic, C83_entry_iff says which entries cause it.
* C84: For every parser that agrees with the grammar of Spec/Block.lean and every manifest whose texts survive (ResourceOk), what is read is keptManifest of what was printed, and the manifest itself if keptManifest m = m. The unrestricted claim is false: C85_not_idempotent (a variable set to the empty text is lost), C68_exceptions, C68_types_lost. Missing: manifests with texts outside ResourceOk, documents whose lines reach 64 KiB. For a single string the condition (Readable) is exact: C84_string_iff.
* C85: Proved where C84 says nothing is lost; C85_second_partial says what the second formatting prints otherwise. The unrestricted claim is false (C85_not_idempotent): an empty variable leaves a bare environment: line that the second formatting drops.
* C86: Failure and pull clauses proved in full; memory, presence of limits and requests proved. Millicores: proved up to less than one millicore plus the floating point error (C86_cpu_error) and exactly for numbers given exactly (C86_cpu_exact); the exact claim is false, cpu: 2.01 becomes 2009 (C86_cpu_loss).
* C94: Proved for files whose resources survive formatting (Formattable) and whose pipelines show all their effects (Effective): lint and compile give the same before and after. Missing: strings outside the readable set of C84, which do not come back (C84_string_iff). The claim without these conditions is false (C94_empty_variable); the converse for the linter is false (C94_refused_accepted).
* C95: Proved for manifests whose resources survive formatting (ResourceOk, lines below 64 KiB); the number four is sharp. Missing: strings outside the readable set of C84, which do not come back (C84_string_iff).
* C96: Proved for manifests whose resources survive formatting (ResourceOk, as in C84) and for printed texts without a line of 64 KiB; formatting before signing is needed, C96_format_breaks
* C97: The natural claim (encode then parse is the identity) is false of the code; C97_same_iff gives the exact condition and C97_encode_partial what comes back otherwise. Needed: settings without float keys and without literals that look like a reference to a secret (map with from_secret), and a YAML library that reads back the trees it writes (Written). C97_library and C97_written: there is such a library, for all manifests with keys of at most 1024 characters, settings without lists or maps as keys, and lines under 64 KiB. C97_scalars: Booleans and integers have the texts that are read as them. Integers have 64 bits as in Go; that parsed sizes do is assumed of the library and proved of its model (C92_fits).
* C98: C98_text_partial: proved for every emitter whose text is read as the tree and every axis whose names are identifiers, whose values could stand alone as plain scalars without quotes, backslashes or dollar signs, when no text becomes null, no text in a setting becomes a number or Boolean, no reference is in a key, and no printable character is written by its code. C98_number shows that texts in settings can become numbers. C98_manifest_partial is the same with the weaker, but less concrete, hypothesis ReadsFilled. Values with line feeds are inserted in quotes (C98_references_quoted). Missing: values that change the structure of the YAML, and empty values.
* C100: Missing: strings outside Readable, which do not come back (C84_string_iff), and lines of 64 KiB or more (C110).
* C102: Proved for files whose strings are Readable (strings that come back from their printed form: C84_string_iff), whose lines are under 64 KiB and that have no matrix (with one: C111; longer lines: C110); the full statement for all strings is false because the printer changes some of them (C84). C102_empty_variable shows the loss of empty variables on a file that meets the hypotheses.
* C103: C103_formatted_partial holds for every manifest in which nothing empty is listed (Tight) and that meets the conditions of C84 (strings the printer does not change, lines under 64 KiB); the three corollaries derive Tight from the file. The full statement is false: C103_blank_changes is a legacy file that meets the other hypotheses and is changed by formatting.
* C111: Proved for files whose axes have no empty values and whose filled-in text is read as the tree of the filled-in strings (GoodAxis, which C98_good derives from conditions on the texts; C98_number shows that it can fail), whose strings are Readable and whose lines are under 64 KiB (as in C102; C110 says what longer lines do). C111_example meets all hypotheses with two axes.

## Trusted base

* The Lean 4.33.0 kernel. Axioms: at most `propext`, `Classical.choice`, `Quot.sound`; `AXIOMS.md` lists them for every theorem. No `sorry`, no `native_decide`, no `bv_decide`, no axioms of our own.
* The reading of the Go sources that the model encodes. It was made by hand from the text of /repo, the code was never run.
* The trusted library models named above (`Model/Node.lean`, `Model/Marshal.lean` for `omitempty` and the order of keys, `Model/Image.lean`, `Model/Float64.lean`, the standard library functions of `Model/Script.lean`, `Model/Path.lean`, `Model/Rand.lean`, `Model/Glob.lean`, `Model/Units.lean`, `Model/Encode.lean`, `Model/PathMatch.lean`, `Model/Hmac.lean`, `Model/FloatText.lean`, `Model/Scanner.lean` for `bufio.Scanner`) and the laws stated as hypotheses.
* The specifications under `Spec` and in the statements.

## Findings

Statements that users would expect and that are false of the code, each proved in the model.

| theorem | what happens |
|---|---|
| `C05_double_cr_fails` | a line ending in two carriage returns makes a freshly signed file fail verification |
| `C09_boundaries_not_signed` | document boundaries are not covered by the signature |
| `C26_service_cycle` | services may declare dependencies and make the compiled graph cyclic |
| `C28_socket_hijack` | a build section naming the image drone/docker redirects every build step to an image of the author's choice, with the docker socket mounted |
| `C32_host_volume_namespace`, `C48_labels_panic` | the volume of the host workspace has no namespace and no label map |
| `C33_service_workdir_lost` | a service that is not declared detached loses its working directory |
| `C34_setting_collision` | two settings with the same variable name are resolved by map order |
| `C35_ambiguous_builds` | two build steps for the same image are resolved by map order |
| `C36_name_clash` | a container named .git-credentials gets the credentials mounted |
| `C38_backquote`, `C67_quote` | tracing a command runs what stands in backquotes (posix) or breaks out of the quotes (Windows) |
| `C39_null_port` | a null port of a trusted pipeline panics the compiler |
| `C43_hub_host_confusion`, `C90_hostname_lost` | docker.io/localhost/x trims to the name of another image; a host with an underscore is never matched |
| `C92_changed`, `C92_drift`, `C92_readable_iff`, `C92_second_unreadable` | formatting changes sizes that need more than four digits; small ones shrink each time; from one exbibyte (less 64 bytes) on the printed size cannot be read, and from 1023.5 PiB on the second formatting makes it so |
| `C93_refused`, `C93_clash`, `C93_ambiguous` | a null key empties the variable of a setting; keys 1 and "1" collide; commas in list elements are ambiguous |
| `C94_empty_variable`, `C94_refused_accepted` | formatting unsets variables with an empty value; it drops what the linter refused |
| `C95_sharp` | a file can change with each of four formattings |
| `C96_format_breaks` | a file that was formatted, signed and verified does not verify after one more formatting |
| `C97_unformattable` | `Encode` turns empty variables and settings into nulls, on which the printer panics |
| `C98_empty_variable`, `C98_number` | an empty variable makes the conversion of a legacy file with a matrix panic; a setting `${GO}` with the value 1.10 becomes 1.1 |
| `C101_dot`, `C101_kubernetes_compiled` | a legacy workspace path `.` means the path of the repository, but the base when converted for Kubernetes; such a pipeline, compiled by this library, runs below `/drone/src` |
| `C102_empty_variable` | a variable set to the empty string in a legacy file is not set after conversion |
| `C113_resolve_first` | secrets resolved before steps are excluded: the secrets of the excluded steps are asked for and handed to the runtime |
| `C113_labels_first` | labels given before global volumes do not reach those volumes |
| `C116_silent` | An error while reading is never reported, what was read before it is parsed as the whole; `ParseFile` of a directory is an empty manifest |
| `C116_together` | Whether a last line of exactly 65536 bytes is read depends on whether the reader reports the end together with its last bytes |
| `C117_limits` | A Bitbucket pattern with a class that has a slash behind a star can miss a name it stands for (`*[^a]*b` and `x/b`); a tag pattern with two slashes is taken for branches, before their own patterns |
| `C119_apostrophe` | on Windows an apostrophe in the last command makes the script unreadable: no command is run |
| `C119_limits` | on Windows the failure of a command with a trailing comment, or of a line before the last of its command, goes unnoticed |
| `C118_limits` | `set +e` and `exit 0` in a command hide failures |
| `C120_image_leak` | a service, or the plugin that runs all build steps, is redirected to an image that the pipeline builds only later: building `redis` in a step makes the `redis` service wait for an image that does not exist when it is started |
| `C121_shared` | a program that hands over dependency lists which overlap in one array gets them overwritten: compiling the services with `deps[:1]` and `deps` makes the second one lose its second dependency, in the pipeline too |
| `C122_zero`, `C122_long` | two different keys can be the same key: appended zero bytes do not count, and a key of more than 64 bytes can be replaced by its 32 byte hash |
| `C123_differs`, `C123_same_iff` | the same number reaches a plugin as `1.2345675e+06` if it is the setting and as `1234567.5` if it stands in a map |
| `C124_cycle_of_two`, `C124_cyclical` | two steps that wait for each other are refused as an unknown dependency; the message about cycles is only given to a step that lists itself, and `ErrCyclicalPipelineDependency` is never returned |
| `C125_written_keys_do_not_count` | a merge key that comes after a key overrides it: `{privileged: false, <<: *base}` is privileged if the base is, whatever YAML says about merge keys |
| `C125_exclusions_stay` | `branch: master` written over a merged `branch: {exclude: [master]}` keeps the exclusion, so the step never runs |
| `C125_list_alias` | a list of maps can be merged where it is written, but not through an alias |
| `C128_shown_alike` | the log does not determine the command: a line feed shows as `\\n`, which is also how a backslash and an n show |
| `C129_devices`, `C129_bare` | `devices`, `shell`, `push` and the `args` and `labels` of a build section have no effect on what is compiled, although a device makes the linter refuse an untrusted pipeline |
| `C130_moved`, `C130_transplant` | the signature covers the lines of the documents, not where one ends and the next begins: without the key a separator can be moved so that a pipeline loses its trigger and the file still verifies |
| `C132_directory` | `convert ci/.gitlab-ci.yml` prints the GitLab file unconverted and reports success |
| `C132_no_ref` | `convert bitbucket-pipelines.yml` cannot be told a branch or tag |
| `C133_script_replaced` | on Windows `--env CI_SCRIPT=...` replaces the script of every step |
| `C133_precedence` | `--env` overrides the variables of the workspace, which the file cannot |
| `C134_inert` | neither lint nor compile takes notice of `trigger`, `depends_on` of pipelines, `node`, `concurrency`, `image_pull_secrets`, `shell`, `push` and build arguments |
| `C110_saved`, `C110_lost` | a line of 64 KiB ends the file without an error: fmt --save and sign --save delete the rest, and a formatted manifest with such a line is read back without the resources after it |
| `C92_negative` | a negative size is accepted, but what fmt prints for it is refused |
| `C109_service_clash`, `C109_clone`, `C109_twice` | a legacy service called like a step, a legacy step called clone, or a step that meets two entries of its matrix condition make the converted pipeline fail the linter |
| `C107_global_key` | in a GitLab file without stages, unknown global keys such as `cache` or `default` become pipelines |
| `C106_parallel`, `C106_empty_item`, `C106_empty_job` | a Bitbucket file with parallel steps, a legacy file with an empty item under `volumes` and a GitLab file with an empty job crash the converter |
| `C105_stuck` | services of an accepted pipeline that wait for each other, or for a name that does not exist, never start |
| `C104_clash`, `C104_not_injective` | two GitLab services `postgres:9` and `postgres:10` without alias get the same name, so the linter refuses every converted pipeline; so do `team/db` and `team__db` |
| `C103_blank_changes` | a legacy container with only empty variables is converted to an `environment:` without entries, which `fmt` removes |
| `C99_refused`, `C99_number_lost`, `C99_variable_iff` | a manifest with a map in a setting cannot be encoded as JSON; integer settings come back as doubles, 2^53+1 as 2^53, and the variable of 1000000 becomes 1e+06 |
| `C46_resumeAt_unknown` | resuming at an unknown step disables everything |
| `C59_empty_list`, `C59_overflow` | an empty matrix axis panics; the size of the matrix can overflow |
| `C60_clone_volume`, `C61_clash`, `C70_or`, `C72_lost`, `C73_matrix_order` | legacy conversion: undefined clone volumes, clashing names, duplicated steps, a lost pipeline, map order |
| `C63_panic`, `C63_limits`, `C64_limits`, `C81_allow_failure_ignored`, `C83_parallel_panics` | GitLab and Bitbucket conversion |
| `C65_convert_save_ignored` | `convert --save` never writes |
| `C68_exceptions`, `C68_types_lost`, `C85_not_idempotent` | the printer leaves scalars unquoted that YAML reads differently; formatting twice differs from formatting once |
| `C76_manifest_not_checked` | `lint` runs no checks across resources |
| `C77_include_ignored`, `C77_parts_ignored` | a scalar `include` or `exclude` is dropped and the condition matches everything |
| `C79_volume_limits`, `C82_spelling_lost` | legacy decoding: volumes without colon, numbers rewritten |
| `C86_cpu_loss` | `cpu: 2.01` becomes 2009 millicores |
