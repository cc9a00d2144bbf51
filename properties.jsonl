{"id": "C01", "title": "Document splitting is line exact", "statement": "ParseRaw cuts its input into documents exactly at lines beginning with '---', stops at the first line beginning with '...', drops separator and terminator lines, keeps every other line in order, normalises each line end to a single newline (one trailing CR removed), and stops silently at a line of 65536 bytes or more.", "quantifier": "every byte sequence given to ParseRaw/ParseRawBytes/ParseRawString", "why_tests_cant": "the input is an arbitrary byte string of any length with any number of documents; a test samples a few files", "anchors": ["yaml/parse.go: ParseRaw, isSeparator, isTerminator"]}
{"id": "C02", "title": "Splitting is stable under re-emission", "statement": "Writing every parsed document back as '---', newline, data and parsing the result again yields the same documents, byte for byte, provided no document line ends in a carriage return.", "quantifier": "every list of documents ParseRaw can return", "why_tests_cant": "round trip over unbounded documents and line shapes", "anchors": ["yaml/parse.go: ParseRaw", "yaml/signer/signer.go: upsert"]}
{"id": "C03", "title": "Parse is all or nothing and keeps order", "statement": "Parse either fails or returns exactly one resource per document, in document order, each with a non-empty kind; if any document fails to decode or has no kind the whole call fails.", "quantifier": "every input and every behaviour of the YAML decoder", "why_tests_cant": "must hold for every number of documents and every position of the faulty one", "anchors": ["yaml/parse.go: Parse, parseRaw"]}
{"id": "C04", "title": "Kind decides the resource type, identically for YAML and JSON", "statement": "The kinds cron, secret, signature and registry decode to their own resource types and every other kind decodes to a pipeline, and the YAML manifest reader and the JSON manifest reader make the same choice; the JSON reader appends one resource per message in order.", "quantifier": "every kind string and every sequence of messages", "why_tests_cant": "the kind is an arbitrary string", "anchors": ["yaml/parse.go: parseRaw", "yaml/manifest.go: Manifest.UnmarshalJSON"]}
{"id": "C05", "title": "A file signed with a key verifies with that key", "statement": "For every file that parses and has no line ending in two carriage returns, and every key of at least 32 bytes, Verify(SignUpdate(file, key), key) returns true.", "quantifier": "every byte sequence, every key", "why_tests_cant": "unbounded files and keys; the failing inputs (lines ending in two carriage returns) are outside any usual test corpus", "anchors": ["yaml/signer/signer.go: SignUpdate, Verify, sign, extract", "yaml/parse.go: ParseRaw"]}
{"id": "C06", "title": "Signing is idempotent and leaves exactly one signature", "statement": "Signing an already signed file with the same key reproduces it byte for byte, and a signed file contains the non-signature documents of the original followed by exactly one signature document (files with no line ending in two carriage returns).", "quantifier": "every file and key", "why_tests_cant": "unbounded files, arbitrary positions and numbers of old signatures", "anchors": ["yaml/signer/signer.go: SignUpdate"]}
{"id": "C07", "title": "Signature documents are not part of the signed content", "statement": "Adding, removing, editing or moving signature documents never changes the value Sign returns.", "quantifier": "every list of documents and every position of signature documents", "why_tests_cant": "quantifies over all placements and contents", "anchors": ["yaml/signer/signer.go: sign"]}
{"id": "C08", "title": "Verify accepts exactly the correct MAC", "statement": "Verify returns true if and only if the file parses, the key has at least 32 bytes, and the hex value in the first signature document decodes to the MAC of the concatenated non-signature documents.", "quantifier": "every file, every key, every MAC function", "why_tests_cant": "an exact characterisation over all inputs, including malformed signatures", "anchors": ["yaml/signer/signer.go: Verify, extract, sign"]}
{"id": "C09", "title": "Verified content cannot be altered", "statement": "If two files carry the same signature value and both verify under the same key with a collision free MAC, then they parse to the same non-signature documents.", "quantifier": "every pair of files, every collision free MAC", "why_tests_cant": "quantifies over all possible alterations", "anchors": ["yaml/signer/signer.go: Verify, sign"]}
{"id": "C10", "title": "Short keys never sign or verify", "statement": "With a key shorter than 32 bytes Sign and SignUpdate return an error for every file, SignUpdate returns no data, and Verify never returns true.", "quantifier": "every file and every key shorter than 32 bytes", "why_tests_cant": "all keys and all files", "anchors": ["yaml/signer/signer.go: sign, Sign, SignUpdate, Verify"]}
{"id": "C11", "title": "Sign then WriteTo equals SignUpdate", "statement": "Writing the value returned by Sign into the file with WriteTo gives the same bytes as SignUpdate.", "quantifier": "every file and key", "why_tests_cant": "two code paths must agree on all inputs", "anchors": ["yaml/signer/signer.go: Sign, WriteTo, upsert, SignUpdate"]}
{"id": "C12", "title": "The linter accepts exactly the documented pipelines", "statement": "Lint returns no error for a pipeline if and only if: volume, mount, image and name rules hold, the platform is supported, names are unique, step dependencies name earlier steps, and, when untrusted, no privileged, device, dns, dns_search, extra_hosts, network_mode, host port, host volume or in-memory volume setting is used.", "quantifier": "every pipeline and both trust levels", "why_tests_cant": "an if-and-only-if over unbounded lists of containers, ports, volumes", "anchors": ["yaml/linter/linter.go: Lint, checkPipeline, checkContainer, checkPorts, checkVolumes, checkDeps, checkPlatform"]}
{"id": "C13", "title": "Accepted step dependencies form an acyclic graph", "statement": "If Lint accepts a pipeline then no step can reach itself through depends_on, and every dependency of a step is either the automatic clone step or a step listed before it.", "quantifier": "every pipeline, dependency chains of every length", "why_tests_cant": "cycles of every length must be excluded", "anchors": ["yaml/linter/linter.go: checkPipeline, checkDeps"]}
{"id": "C14", "title": "Accepted pipelines have unique container names", "statement": "If Lint accepts a pipeline then the names of all steps and services are pairwise distinct, non-empty, and none is 'clone' unless cloning is disabled.", "quantifier": "every pipeline", "why_tests_cant": "unbounded number of containers", "anchors": ["yaml/linter/linter.go: checkPipeline"]}
{"id": "C15", "title": "Accepted manifests have an acyclic pipeline graph", "statement": "If the manifest linter accepts a manifest then pipeline names are unique, every depends_on names an earlier pipeline, and no pipeline reaches itself through depends_on.", "quantifier": "every manifest", "why_tests_cant": "cycles of every length over any number of pipelines", "anchors": ["yaml/linter/config.go: Manifest, checkPipelines, checkPipelineDeps"]}
{"id": "C16", "title": "Trust only widens what is accepted", "statement": "Every resource accepted by Lint as untrusted is also accepted as trusted.", "quantifier": "every resource", "why_tests_cant": "monotonicity over all resources", "anchors": ["yaml/linter/linter.go: Lint"]}
{"id": "C17", "title": "Non-pipeline resources are validated by content only", "statement": "Lint accepts a cron iff its branch is set, a secret iff it has data or an external path or name, a registry iff it has entries and a signature iff its hmac is set, whatever the trust level.", "quantifier": "every resource", "why_tests_cant": "all field values", "anchors": ["yaml/linter/linter.go: Lint", "yaml/cron.go, secret.go, registry.go, signature.go: Validate"]}
{"id": "C18", "title": "Exclusion wins, inclusion is required when present", "statement": "A condition matches a value iff no exclude pattern matches it and either there are no include patterns or some include pattern matches it.", "quantifier": "every condition, value and pattern matcher", "why_tests_cant": "unbounded pattern lists", "anchors": ["yaml/cond.go: Condition.Match, Includes, Excludes"]}
{"id": "C19", "title": "A step is skipped iff some condition fails", "statement": "The skip function returns true iff at least one of branch, cron, event, instance, ref, repo, target, action does not match the build data; a step with no conditions is never skipped; path, status and matrix conditions have no influence.", "quantifier": "every step and every build", "why_tests_cant": "all combinations of eight conditions with unbounded pattern lists", "anchors": ["yaml/compiler/skip.go: SkipFunc"]}
{"id": "C20", "title": "Run policy follows the status condition", "statement": "A compiled step runs on failure iff the status condition has include patterns and matches 'failure', and on success iff it matches 'success'; with no status condition it runs on success only.", "quantifier": "every status condition", "why_tests_cant": "all include/exclude combinations", "anchors": ["yaml/compiler/convert.go: toRunPolicy"]}
{"id": "C21", "title": "Short and long YAML forms mean the same", "statement": "A scalar for build, push, port, environment variable, condition or string list decodes to the same value as the explicit long form, and a scalar list condition equals its include form; environment variables and settings survive a marshal then unmarshal unless empty.", "quantifier": "every node of the decoded YAML tree", "why_tests_cant": "all strings, numbers and nesting", "anchors": ["yaml/cond.go, push.go, build.go, port.go, env.go, param.go: UnmarshalYAML, MarshalYAML", "yaml/converter/internal/string_slice.go"]}
{"id": "C22", "title": "Compiled steps are the clone step, services and steps in order", "statement": "Compile produces, in this order, the clone step unless disabled, one step per service and one step per pipeline step, with the source names, and no others.", "quantifier": "every pipeline and every compiler configuration using the library callbacks", "why_tests_cant": "unbounded numbers of containers", "anchors": ["yaml/compiler/compiler.go: Compile"]}
{"id": "C23", "title": "Services are always detached", "statement": "Every compiled service is detached, a compiled step is detached iff the source step is, the clone step never is.", "quantifier": "every pipeline", "why_tests_cant": "unbounded number of containers", "anchors": ["yaml/compiler/compiler.go: Compile", "yaml/compiler/step.go: createStep, createBuildStep"]}
{"id": "C24", "title": "Skipped containers never run, and only they", "statement": "A compiled service or step has run policy never iff the skip callback returns true for it or its own status condition excludes both success and failure.", "quantifier": "every pipeline and skip callback", "why_tests_cant": "arbitrary callbacks", "anchors": ["yaml/compiler/compiler.go: Compile"]}
{"id": "C25", "title": "Dependency graph of the compiled pipeline", "statement": "If no step declares dependencies the compiled steps keep exactly the declared dependencies (none); otherwise, when cloning is enabled, every service and every step directly or transitively waits for the clone step.", "quantifier": "every pipeline, dependency chains of any length", "why_tests_cant": "unbounded graphs", "anchors": ["yaml/compiler/compiler.go: Compile (isSerial, DependsOn)"]}
{"id": "C26", "title": "A linted pipeline compiles to an acyclic, closed graph", "statement": "If Lint accepts the pipeline and no service declares dependencies, then every dependency in the compiled pipeline names a compiled step listed before it, so the compiled graph has no cycle.", "quantifier": "every pipeline", "why_tests_cant": "unbounded graphs", "anchors": ["yaml/compiler/compiler.go: Compile", "yaml/linter/linter.go: checkPipeline"]}
{"id": "C27", "title": "Privileged mode is granted only on request", "statement": "A compiled container is privileged iff the privileged callback approves it or it is not a build step and asked for it itself; the clone step never is; for a pipeline accepted as untrusted only the callback grants it.", "quantifier": "every pipeline and callback", "why_tests_cant": "arbitrary callbacks, unbounded containers", "anchors": ["yaml/compiler/compiler.go: Compile", "yaml/compiler/step.go"]}
{"id": "C28", "title": "The docker socket is confined to build steps", "statement": "A compiled step mounts the docker socket volume iff it comes from a step with a build section, at /var/run/docker.sock; the socket volume exists iff there is such a step; no user mount can name it; and the container that receives it runs the drone/docker image.", "quantifier": "every pipeline", "why_tests_cant": "quantifies over all user controlled names and images", "anchors": ["yaml/compiler/step.go: createStep, createBuildStep", "yaml/compiler/compiler.go: Compile (rename)"]}
{"id": "C29", "title": "Untrusted pipelines never reach the host", "statement": "If Lint accepts a pipeline as untrusted then its compiled form has no host path volume other than the docker socket and the host directory of a compiler configured with CreateHostWorkspace, no in-memory volume, no host port, no dns, dns_search, extra_hosts or network setting on any container.", "quantifier": "every pipeline", "why_tests_cant": "end-to-end property over two components and all inputs", "anchors": ["yaml/linter/linter.go", "yaml/compiler/compiler.go: Compile", "yaml/compiler/step.go"]}
{"id": "C30", "title": "Secrets are never compiled to plaintext variables", "statement": "An environment variable or setting taken from a secret becomes a secret reference with the right variable name and never a plaintext value, and every plaintext variable or secret reference of a compiled step comes from its source, the workspace, the clone settings, the build settings or the Windows script.", "quantifier": "every container", "why_tests_cant": "unbounded maps", "anchors": ["yaml/compiler/step.go: createStep"]}
{"id": "C31", "title": "Workspace variables cannot be spoofed", "statement": "In every compiled step the six workspace variables hold the computed workspace, whatever the user's environment and settings say.", "quantifier": "every pipeline", "why_tests_cant": "all user environments", "anchors": ["yaml/compiler/workspace.go: setupWorkspaceEnv, createWorkspace"]}
{"id": "C32", "title": "Identifiers are unique and the namespace is shared", "statement": "All UIDs in a compiled pipeline (pipeline, volumes, steps, files) are pairwise distinct provided the random source never repeats, and every step, file and volume created by the compiler carries the pipeline namespace.", "quantifier": "every pipeline", "why_tests_cant": "unbounded number of generated identifiers", "anchors": ["yaml/compiler/compiler.go", "yaml/compiler/step.go", "yaml/compiler/script_posix.go", "yaml/compiler/clone.go", "yaml/compiler/workspace.go"]}
{"id": "C33", "title": "Working directory rule", "statement": "A compiled container works in the workspace unless it is detached without commands, in which case it keeps its own working directory; the clone step works in the workspace.", "quantifier": "every container", "why_tests_cant": "all combinations", "anchors": ["yaml/compiler/workspace.go: setupWorkingDir", "yaml/compiler/step.go: createStep"]}
{"id": "C34", "title": "Compilation does not depend on map order", "statement": "The variables and the set of secret references of a compiled container do not depend on the iteration order of its environment and settings maps.", "quantifier": "every container and every iteration order", "why_tests_cant": "Go randomises map order; a test sees a few orders", "anchors": ["yaml/compiler/step.go: createStep"]}
{"id": "C35", "title": "References to built images are redirected consistently", "statement": "When one build step builds an image, every compiled step whose image denotes the same name and tag is pointed at exactly the alias that the build step tags, and every other image is left as its expanded form.", "quantifier": "every pipeline and every image name", "why_tests_cant": "unbounded steps and names", "anchors": ["yaml/compiler/compiler.go: Compile (rename)", "yaml/compiler/step.go: createBuildStep", "yaml/compiler/image/image.go"]}
{"id": "C36", "title": "Git credentials are given to the clone step only", "statement": "The git credentials file is mounted in no container other than the automatic clone step, exists only if the callback returned data and cloning is enabled, and carries exactly that data.", "quantifier": "every pipeline and callback", "why_tests_cant": "all user controlled names", "anchors": ["yaml/compiler/clone.go: setupCloneCredentials", "yaml/compiler/compiler.go"]}
{"id": "C37", "title": "The generated script runs the commands verbatim in order", "statement": "The script of a step with commands is the fixed preamble, which unsets the netrc variables before any command, followed by each command verbatim in order, each preceded by its trace line; on Windows the script is passed base64 encoded and decodes to that script.", "quantifier": "every list of commands", "why_tests_cant": "arbitrary command text", "anchors": ["yaml/compiler/script_posix.go: setupScript", "yaml/compiler/script_win.go: setupScriptWin"]}
{"id": "C38", "title": "Tracing a command does not execute it", "statement": "The trace line of a command is a shell word in which nothing of the command is subject to expansion, and which the shell reads back as ending exactly where the trace line ends.", "quantifier": "every command string", "why_tests_cant": "arbitrary command text", "anchors": ["yaml/compiler/script_posix.go: setupScript"]}
{"id": "C39", "title": "A linted pipeline compiles without panicking", "statement": "If Lint accepts a pipeline then Compile with the library callbacks returns a specification (no nil dereference).", "quantifier": "every pipeline including null list entries", "why_tests_cant": "all placements of nil", "anchors": ["yaml/compiler/compiler.go", "yaml/compiler/step.go", "yaml/compiler/convert.go", "yaml/linter/linter.go"]}
{"id": "C40", "title": "Every file mount resolves", "statement": "Every file mounted by a compiled step is present in the specification under that name, and a step with commands on a non-Windows platform mounts and executes its own script.", "quantifier": "every pipeline", "why_tests_cant": "unbounded steps and names", "anchors": ["yaml/compiler/script_posix.go", "yaml/compiler/clone.go"]}
{"id": "C41", "title": "Every container shares the workspace volume", "statement": "With the default callbacks the workspace volume exists exactly once among generated volumes and every compiled step mounts it at the workspace base; with the host workspace every step mounts the host directory at the full workspace path.", "quantifier": "every pipeline", "why_tests_cant": "unbounded steps", "anchors": ["yaml/compiler/workspace.go: CreateWorkspace, MountWorkspace, CreateHostWorkspace, MountHostWorkspace"]}
{"id": "C42", "title": "Workspace path is clean and rooted", "statement": "The full workspace path is the cleaned join of base and path: it has no empty, '.' or inner '..' segment and is absolute when the base is; on Windows it starts with c: and has no forward slash.", "quantifier": "every base and path", "why_tests_cant": "all strings", "anchors": ["yaml/compiler/workspace.go: createWorkspace, toWindowsPath, toWindowsDrive"]}
{"id": "C43", "title": "Image expansion and matching laws", "statement": "Expanding an image name is idempotent, tag matching is an equivalence relation equal to equality of expansions, name matching ignores tags and is an equivalence relation, and names that are not valid references are returned unchanged.", "quantifier": "every string", "why_tests_cant": "all strings, including invalid ones", "anchors": ["yaml/compiler/image/image.go: Trim, Expand, Match, MatchTag, MatchHostname"]}
{"id": "C44", "title": "Privileged whitelisting", "statement": "The docker-in-docker callback approves a container iff it has no commands, command or entrypoint and its image has the same short name as a whitelisted image.", "quantifier": "every container and whitelist", "why_tests_cant": "all lists and names", "anchors": ["yaml/compiler/dind.go: DindFunc"]}
{"id": "C45", "title": "Random identifiers", "statement": "A generated identifier has exactly 32 characters from a-z0-9, is independent of how the random source is chunked, is produced as soon as 32 acceptable bytes were seen, and maps the same number of byte values to each character.", "quantifier": "every random byte stream", "why_tests_cant": "all byte streams", "anchors": ["yaml/compiler/internal/rand/rand.go: String"]}
{"id": "C46", "title": "Include, Exclude and ResumeAt select steps", "statement": "With a non-empty list Include disables exactly the non-clone steps not listed, Exclude exactly the non-clone steps listed, ResumeAt exactly the non-clone steps before the named one; nothing else changes and with an empty argument nothing changes.", "quantifier": "every specification and argument", "why_tests_cant": "unbounded steps", "anchors": ["yaml/compiler/transform/filter.go: Include, Exclude, ResumeAt"]}
{"id": "C47", "title": "Environment transforms", "statement": "WithEnviron sets every given variable in every step and leaves every other variable unchanged; WithNetrc does so for the six netrc variables iff user name and password are set; WithProxy for the proxy variables set in the process environment, upper case taking precedence; the iteration order is irrelevant.", "quantifier": "every specification, map and iteration order", "why_tests_cant": "unbounded maps and steps", "anchors": ["yaml/compiler/transform/env.go", "yaml/compiler/transform/netrc.go", "yaml/compiler/transform/proxy.go"]}
{"id": "C48", "title": "Labels, limits, networks and registry credentials", "statement": "WithLables adds exactly the given labels to the pipeline, every volume and every step; WithLimits sets the memory and cpu limit of every step unless both are zero and keeps requests; WithNetworks and WithAuths append exactly the given entries; WithAuthsFunc behaves as WithAuths on the callback result.", "quantifier": "every specification and argument", "why_tests_cant": "unbounded steps and volumes", "anchors": ["yaml/compiler/transform/labels.go", "limits.go", "network.go", "auths.go"]}
{"id": "C49", "title": "Secret resolution requests exactly what is needed", "statement": "WithSecretFunc asks the callback exactly once for every secret name used by some step that may run, never for a name used only by disabled steps, and adds exactly the returned secrets; WithSecrets adds exactly one secret per entry.", "quantifier": "every specification and callback", "why_tests_cant": "unbounded steps and secrets", "anchors": ["yaml/compiler/transform/secret.go: WithSecretFunc, WithSecrets"]}
{"id": "C50", "title": "Global volumes are mounted everywhere", "statement": "WithVolumes adds one host volume per entry and mounts it at the given path in every step and changes nothing else; WithVolumeSlice behaves as WithVolumes on the last entry per host path and ignores malformed entries.", "quantifier": "every specification and argument", "why_tests_cant": "unbounded steps and entries", "anchors": ["yaml/compiler/transform/volume.go"]}
{"id": "C51", "title": "Combined transforms run in order", "statement": "Combine applies its arguments in order, combining nothing changes nothing, and nested combinations flatten.", "quantifier": "every list of transforms", "why_tests_cant": "arbitrary functions and lists", "anchors": ["yaml/compiler/transform/combine.go"]}
{"id": "C52", "title": "Printed manifests frame their documents", "statement": "Printing a manifest with at least one cron, secret, signature or pipeline resource and splitting the text again yields exactly one document per such resource, in order, each with exactly the printed body, as long as no line is overlong and secret data has no carriage return.", "quantifier": "every manifest", "why_tests_cant": "field values are arbitrary strings that might contain separators", "anchors": ["yaml/pretty/pretty.go: Print", "yaml/pretty/pipeline.go", "yaml/pretty/container.go", "yaml/pretty/writer.go", "yaml/parse.go"]}
{"id": "C53", "title": "Printing does not depend on map order", "statement": "The printed text does not depend on the iteration order of any map in the manifest.", "quantifier": "every manifest and every iteration order", "why_tests_cant": "Go randomises map order", "anchors": ["yaml/pretty/container.go: printEnviron, printSettings", "yaml/pretty/writer.go: writeMapping, writeMappingStr"]}
{"id": "C54", "title": "Indentation and zero mode are balanced", "statement": "Printing any value returns the writer to the indentation depth and zero mode it started with.", "quantifier": "every value and writer state", "why_tests_cant": "arbitrarily nested values", "anchors": ["yaml/pretty/writer.go", "yaml/pretty/container.go", "yaml/pretty/pipeline.go"]}
{"id": "C55", "title": "Quoted scalars read back exactly", "statement": "A string the printer writes in double quotes is read back to the same string by the YAML double quoted scalar rules; a string written plain has no line break, no leading or trailing space, no ': ' or ' #' inside and no ':' at the end.", "quantifier": "every string", "why_tests_cant": "all strings over unicode", "anchors": ["yaml/pretty/writer.go: writeEncode", "yaml/pretty/util.go: isQuoted"]}
{"id": "C56", "title": "Secret data is chunked without loss", "statement": "Secret data is printed in lines of at most 60 bytes whose concatenation is the data without spaces and newlines.", "quantifier": "every secret", "why_tests_cant": "all lengths", "anchors": ["yaml/pretty/secret.go: printData", "yaml/pretty/util.go: chunk"]}
{"id": "C57", "title": "Files that need no conversion are returned unchanged", "statement": "Convert returns its input unchanged unless the file name is a Bitbucket or GitLab configuration or some line is 'pipeline:' followed only by blanks.", "quantifier": "every file and metadata", "why_tests_cant": "all byte strings", "anchors": ["yaml/converter/convert.go: Convert", "yaml/converter/legacy/match.go: Match"]}
{"id": "C58", "title": "Conversion is idempotent", "statement": "Converting the output of a legacy conversion again (under a Drone file name) returns it unchanged.", "quantifier": "every legacy configuration", "why_tests_cant": "all field values", "anchors": ["yaml/converter/convert.go", "yaml/converter/legacy/internal/config.go: Convert", "yaml/pretty/pretty.go"]}
{"id": "C59", "title": "The build matrix is the Cartesian product", "statement": "For a matrix of non-empty value lists with at most 12 variables and at most 27 combinations the computed axes are exactly all combinations, each once, whatever the iteration order; beyond, at most 27 axes are produced and every axis takes its values from the lists.", "quantifier": "every matrix and iteration order", "why_tests_cant": "unbounded variables and values", "anchors": ["yaml/converter/legacy/matrix/matrix.go: calc"]}
{"id": "C60", "title": "Converted legacy volumes resolve", "statement": "After a legacy conversion volume names are unique, distinct host paths get distinct names, and every mount of every container names a declared volume with its source path.", "quantifier": "every legacy configuration", "why_tests_cant": "unbounded containers and volumes", "anchors": ["yaml/converter/legacy/internal/config.go: toVolumes, toVolumeMounts"]}
{"id": "C61", "title": "Converted legacy steps have unique names", "statement": "After a legacy conversion the step names are pairwise distinct.", "quantifier": "every legacy configuration", "why_tests_cant": "all names and collisions", "anchors": ["yaml/converter/legacy/internal/config.go: Convert (names)"]}
{"id": "C62", "title": "Legacy branch filters become equivalent ref triggers", "statement": "A legacy branch include list without excludes converts to a trigger that fires for a push to a branch iff some include pattern matches its ref, always for pull requests, and for tags only if some step listens to the tag event.", "quantifier": "every legacy configuration and pattern matcher", "why_tests_cant": "all patterns and refs", "anchors": ["yaml/converter/legacy/internal/config.go: Convert"]}
{"id": "C63", "title": "GitLab stages become a dependency chain", "statement": "A GitLab configuration with stages converts to one pipeline per stage in order, each depending on exactly the previous one, containing exactly the jobs of that stage with the global and job scripts in order.", "quantifier": "every configuration and iteration order", "why_tests_cant": "unbounded stages and jobs", "anchors": ["yaml/converter/gitlab/convert.go: Convert"]}
{"id": "C64", "title": "Bitbucket pipeline selection", "statement": "A Bitbucket configuration converts the steps of a tag pipeline matching the tag, else of a branch pipeline matching the branch, else the default pipeline; unnamed steps get distinct generated names and the global image is used where none is set.", "quantifier": "every configuration, ref and iteration order", "why_tests_cant": "unbounded maps", "anchors": ["yaml/converter/bitbucket/config.go: Pipeline", "yaml/converter/bitbucket/convert.go: Convert"]}
{"id": "C65", "title": "The command line saves what it prints", "statement": "The commands with a save flag (fmt, convert, sign) write the result to the source file iff that flag is given, and never modify the file when they fail.", "quantifier": "every file and flag setting", "why_tests_cant": "all inputs and error paths", "anchors": ["main.go: runFormat, runConvert, runSign"]}
{"id": "C66", "title": "Compile command picks the requested pipeline", "statement": "The compile command compiles the first pipeline whose name equals the requested name, or the first pipeline if none is requested, and fails iff there is none; cloning is off unless asked for.", "quantifier": "every manifest and name", "why_tests_cant": "unbounded manifests", "anchors": ["main.go: runCompile"]}
{"id": "C67", "title": "Tracing a command on Windows does not execute it", "statement": "PowerShell reads the trace of a command as one string literal that ends exactly where the trace line closes it, so no part of the command is run by the trace.", "quantifier": "every command string", "why_tests_cant": "Quoting must hold for every command; the examples in the tests contain no quote characters.", "anchors": ["yaml/compiler/script_win.go: setupScriptWin"]}
{"id": "C68", "title": "Plain scalars read back as the same string", "statement": "A string the printer writes without quotes is read back by YAML as a plain scalar with the same text, and as a string.", "quantifier": "every string", "why_tests_cant": "The strings that need quotes form an infinite set defined by the YAML scanner; the tests try a few dozen.", "anchors": ["yaml/pretty/util.go: isQuoted", "yaml/pretty/writer.go: writeEncode, writeValue"]}
{"id": "C69", "title": "Printing panics exactly on nil entries", "statement": "Print panics if and only if some pipeline has a nil volume, or a step or service that is not nil has a nil setting, environment variable, device, port or volume mount; nil steps and services are skipped.", "quantifier": "every manifest", "why_tests_cant": "Absence of panics over all manifests cannot be sampled; the fixtures contain no null entries.", "anchors": ["yaml/pretty/pretty.go: Print", "yaml/pretty/container.go: printContainer, printSettings, printEnviron, printPorts, printDeviceMounts, printVolumeMounts", "yaml/pretty/pipeline.go: printPipeline, printVolumes"]}
{"id": "C70", "title": "Matrix conditions select steps per axis", "statement": "In the pipeline for a matrix axis a step or service of a legacy file is present exactly once iff the axis satisfies every entry of its matrix condition (always, without one), and absent otherwise.", "quantifier": "every legacy configuration and axis", "why_tests_cant": "The number of combinations of axes and conditions is unbounded; tests try one.", "anchors": ["yaml/converter/legacy/internal/config.go: Convert (matrix filters)"]}
{"id": "C71", "title": "Legacy containers are converted one to one", "statement": "Without a matrix every clone and pipeline container becomes one step in order and every service one service, with the same image, command, commands, entrypoint, flags, settings, environment and conditions; secrets are stored under their upper case target and win over variables; deployment events become promote; nothing else is set.", "quantifier": "every legacy configuration", "why_tests_cant": "A lost or swapped field for some combination of options goes unnoticed in samples.", "anchors": ["yaml/converter/legacy/internal/config.go: toContainer, toEnvironment, toSettings, toConditions, toPromote"]}
{"id": "C72", "title": "One pipeline per matrix axis", "statement": "A legacy file without a matrix converts to one pipeline, with a list of axes to one per axis, with value lists to one per combination up to 27.", "quantifier": "every legacy configuration", "why_tests_cant": "Requires counting for all matrices.", "anchors": ["yaml/converter/legacy/internal/config.go: Convert", "yaml/converter/legacy/matrix/matrix.go: Parse"]}
{"id": "C73", "title": "Legacy conversion does not depend on map order", "statement": "Converting a legacy file without matrix twice gives the same text, although Go iterates over its maps in random order.", "quantifier": "every legacy configuration and iteration order", "why_tests_cant": "Tests see one order per run.", "anchors": ["yaml/converter/legacy/internal/config.go: Convert, toSecrets, toSettings, toEnvironment", "yaml/pretty"]}
{"id": "C74", "title": "The compile command applies its flags to every step", "statement": "What the compile command prints is the compiled pipeline in which every step, and nothing else of it, got: the --env variables, overridden by the variables for branch, commit, ref, remote, event and (for tag refs) tag, overridden by netrc (iff user and password are given), overridden by the process's proxy variables; the labels, networks, memory limit and host volumes of the flags. Registry credentials and secrets of the flags are added. The command panics only where the compiler does.", "quantifier": "every manifest, flag setting and map iteration order", "why_tests_cant": "precedence over all variable names, ten composed transforms, random iteration order", "anchors": ["main.go: runCompile, defaultEnvs", "yaml/compiler/transform"]}
{"id": "C75", "title": "sign --save and verify agree", "statement": "After the command sign --save succeeded on a file, verify with the same key succeeds on it, and the file has the same documents apart from one signature document at the end. The verify command succeeds iff the signer accepts the file.", "quantifier": "every file and key", "why_tests_cant": "all inputs", "anchors": ["main.go: runSign, runVerify", "signer/signer.go"]}
{"id": "C76", "title": "What the lint command accepts", "statement": "The lint command succeeds iff the file parses and every resource in it passes the linter in the requested trust mode.", "quantifier": "every file", "why_tests_cant": "unbounded files", "anchors": ["main.go: runLint", "yaml/linter"]}
{"id": "C77", "title": "Conditions are read in full", "statement": "Every documented form of a when or trigger condition (a scalar, a list of scalars, a map with include and exclude lists) decodes to exactly its patterns and never fails; other forms are either refused or lose no pattern.", "quantifier": "every YAML node given as a condition", "why_tests_cant": "UnmarshalYAML discards errors, so malformed conditions pass silently; tests try a few forms", "anchors": ["yaml/cond.go: Condition.UnmarshalYAML"]}
{"id": "C78", "title": "Keys fill their own fields", "statement": "Each documented key of a step or pipeline fills its own field and no other, whatever the order of the keys and whatever unknown keys there are; decoding fails exactly if some value does not fit its key.", "quantifier": "every mapping node", "why_tests_cant": "all subsets and orders of some 40 keys", "anchors": ["yaml/pipeline.go: struct tags", "yaml/parse.go:94"]}
{"id": "C79", "title": "Legacy string forms mean their map forms", "statement": "In legacy files a volume source:destination[:mode] names source and destination, a list of KEY=value means the same as the map, and a list of secret names means the same as source and target entries.", "quantifier": "all strings and lists", "why_tests_cant": "all strings, including further separators", "anchors": ["yaml/converter/legacy/internal/volume.go, slice_map.go, secret.go: UnmarshalYAML"]}
{"id": "C80", "title": "Legacy constraints accept scalars and lists alike", "statement": "A legacy constraint given as scalar, list, or include and exclude with a scalar or list each decodes to exactly its patterns; a list with a list or map inside is lost as a whole.", "quantifier": "all strings and lists", "why_tests_cant": "all strings and nestings", "anchors": ["yaml/converter/legacy/internal/constraint.go: UnmarshalYAML"]}
{"id": "C81", "title": "GitLab job settings take effect", "statement": "An image given by name means the same as its map form, and allow_failure of a job makes the converted step ignore failures.", "quantifier": "every GitLab job node", "why_tests_cant": "all jobs", "anchors": ["yaml/converter/gitlab/config.go: Image.UnmarshalYAML, Job"]}
{"id": "C82", "title": "Legacy scalars keep their text", "statement": "The value of an environment variable of a legacy step after conversion is the text written in the file.", "quantifier": "all scalars", "why_tests_cant": "all spellings of scalars", "anchors": ["yaml/converter/legacy/internal/container.go: Containers.UnmarshalYAML"]}
{"id": "C83", "title": "Bitbucket stages are converted or refused", "statement": "A Bitbucket stage decodes to its steps in order, and no decodable stage makes the converter panic.", "quantifier": "all stages", "why_tests_cant": "all lists of entries", "anchors": ["yaml/converter/bitbucket/config.go: Stage.UnmarshalYAML", "yaml/converter/bitbucket/convert.go: toContainer"]}
{"id": "C84", "title": "Formatting keeps the meaning of a file", "statement": "Parsing what pretty.Print wrote for a manifest gives the manifest back: the same resources in the same order with the same fields, apart from the order of map entries.", "quantifier": "all manifests whose texts the printer writes so that YAML reads them back, and all YAML parsers that agree with the grammar", "why_tests_cant": "relates the printer, the YAML grammar and all decoders for every manifest; a sample shows one file", "anchors": ["yaml/pretty/pretty.go: Print", "yaml/pretty/pipeline.go", "yaml/pretty/container.go", "yaml/parse.go: ParseBytes"]}
{"id": "C85", "title": "Formatting twice is formatting once", "statement": "Running the formatter on its own output leaves the text unchanged.", "quantifier": "all manifests and parsers as in C84", "why_tests_cant": "all manifests; map order and the decoders are involved", "anchors": ["yaml/pretty/pretty.go: Print", "main.go: runFormat"]}
{"id": "C86", "title": "Failure, pull and resource settings reach the compiled step", "statement": "A compiled container ignores failures iff its source says failure: ignore in any case; the clone step and build steps pull if-not-exists and every other container as its pull setting says in any case; limits and requests are carried over with the memory in bytes and the number of cores in millicores.", "quantifier": "all pipelines, callbacks and random sources", "why_tests_cant": "all spellings and all numbers of cores, including rounding", "anchors": ["yaml/compiler/convert.go: toIgnoreErr, toPullPolicy, toResources, toCPUMillis"]}
{"id": "C87", "title": "Variables and settings reach the compiled step", "statement": "Every environment variable with a plain value is set to that value in the compiled step and every plain scalar setting is set as PLUGIN_NAME to its text, unless the compiler itself or another setting uses the same variable name.", "quantifier": "all pipelines, callbacks, map orders", "why_tests_cant": "all maps, names and values", "anchors": ["yaml/compiler/step.go: createStep", "yaml/compiler/encode.go: encode"]}
{"id": "C88", "title": "Build and clone sections reach their steps", "statement": "The variables of a build step carry exactly the context, dockerfile, cache_from list and expanded image of its build section, each only if given; the clone step gets PLUGIN_DEPTH iff the depth is positive and the verification switches iff skip_verify is set.", "quantifier": "all pipelines", "why_tests_cant": "all combinations of sections", "anchors": ["yaml/compiler/step.go: createBuildStep", "yaml/compiler/clone.go: setupCloneDepth"]}
{"id": "C89", "title": "The transform callback sees the whole result", "statement": "Compiling with a transform callback gives exactly the result of the callback on what is compiled without it.", "quantifier": "all compilers, callbacks and pipelines", "why_tests_cant": "all callbacks", "anchors": ["yaml/compiler/compiler.go: Compile"]}
{"id": "C90", "title": "Expanding and trimming an image name is determined by its grammar", "statement": "For every image name built from an optional host, path components, an optional tag and an optional digest that obey the reference grammar, Expand gives the full form (docker.io for a missing host or index.docker.io, the library namespace for a single component on docker.io, the tag latest if there is neither tag nor digest) and Trim gives the short form (no tag, no digest, no docker.io, no library). Every other string is returned unchanged by both and matches no hostname. MatchHostname compares with the host of the full form, except that a host that is no registry address (such as one with an underscore) is never matched although it is kept in the full form.", "quantifier": "all strings, all digest libraries that obey the stated laws", "why_tests_cant": "The set of image names is infinite; the tests list a few names, while the claim needs every combination of host, path, separators, tag and digest, and that nothing else is rewritten.", "anchors": ["yaml/compiler/image/image.go:20-45", "yaml/compiler/image/image.go:50-81"]}
{"id": "C91", "title": "The patterns of conditions mean what their grammar says", "statement": "For every pattern written from literals, ?, *, character classes, alternatives and ** components, and every name (a branch, ref, repository, event, ...), a condition with the pattern matches iff the name is one the pattern stands for: ? and classes stand for one character, * for any characters but a slash, ** for any number of components, alternatives for each option. A pattern without special characters stands for itself only; dir/** stands for everything below dir at any depth but not for dir; dir/* only for what is directly below; ** for everything; a final slash makes no difference. A converted legacy file with a plain branch list is triggered by a push iff the branch is in the list.", "quantifier": "all patterns of the grammar without two adjacent stars in a component and without alternatives that stand for the empty text, all names without backslash", "why_tests_cant": "Patterns and names are unbounded and the matcher backtracks; the tests try a handful of pairs.", "anchors": ["yaml/cond.go:17", "yaml/cond.go:42-75", "yaml/compiler/skip.go:34-57", "yaml/converter/legacy/internal/config.go"]}
{"id": "C92", "title": "Sizes mean what they say and survive formatting up to four digits", "statement": "A memory or volume size is accepted iff it obeys the grammar number, optional space, optional unit k/m/g/t/p, optional i, optional b (in any case); a whole number below 2^53 with a unit is exactly that many powers of 1024, however the unit is spelled. The formatter prints the size in the largest unit it reaches with four significant digits: a size that needs no more digits (in particular every whole multiple of a unit below 1024 of it) is read back exactly, every other one within one in 1990; from one mebibyte up to 1023.5 pebibytes a second formatting changes nothing more. Beyond that formatting does change limits (1100MiB becomes 1.074GiB), sizes below a mebibyte can shrink with each formatting, and a printed size can be read again iff it is more than 64 bytes below one exbibyte and not negative.", "quantifier": "all strings; all sizes below 2^53 bytes", "why_tests_cant": "The unit test reads three sizes. The round trip involves binary floating point and decimal rounding, whose exceptions are sparse among 2^53 sizes.", "anchors": ["yaml/unit.go:27-44", "yaml/unit.go:51-53", "yaml/pretty/container.go", "yaml/pretty/pipeline.go"]}
{"id": "C93", "title": "The variable of a setting stands for its value", "statement": "A map given as a plugin setting reaches the compiled step as compact JSON text that every JSON reader reads as that map, keys as text and in order, whatever strings, numbers and nesting it has; texts of different values differ, and the text does not depend on the order of the maps. A list of scalars becomes the texts of its elements joined by commas, and cutting at the commas gives them back if none contains one; a list with lists or maps inside becomes JSON. This holds for values all of whose map keys are scalars with different texts. A null, list or map key anywhere makes the whole variable empty, keys with the same text (1 and \"1\") lose an entry by map order, and elements with commas, empty lists and null elements cannot be told apart.", "quantifier": "all setting values of any depth; all strings; all texts of floats that are JSON numbers", "why_tests_cant": "The unit test encodes nine small values, one map among them, and reads none back; escaping, nesting, key order and collisions are an unbounded space.", "anchors": ["yaml/compiler/encode.go:30-67", "yaml/compiler/step.go:108-131", "yaml/param.go:41-43"]}
{"id": "C94", "title": "Formatting a valid file changes neither its validity nor what is run", "statement": "If the linter accepts a file, it accepts it after `fmt --save`, and `compile` prints the same specification for it with the same flags: the same steps with the same images, commands, variables, secrets, mounts, ports, limits and conditions, the same volumes, files and secrets. Only the order of variables and of secret references may differ, and an empty platform is spelled out as linux/amd64. This holds for files whose resources survive formatting and whose pipelines show all their effects. It does not hold for effects that formatting does not write: a variable set to the empty text is unset after formatting. The converse is false: a file that the linter refused can be accepted after formatting, because what it refused is not written.", "quantifier": "all manifests the linter accepts whose strings the printer writes readably; all flags of lint and compile; all YAML parsers that agree with the grammar", "why_tests_cant": "The printer tests compare printed text with golden files and the compiler tests compile fixed files; no test compares what is compiled before and after formatting, and the space of manifests is unbounded.", "anchors": ["main.go:86-101", "main.go:124-137", "main.go:209-308", "yaml/pretty/container.go", "yaml/pretty/pipeline.go", "yaml/linter/linter.go", "yaml/compiler/compiler.go"]}
{"id": "C95", "title": "Formatting settles", "statement": "Formatting a file again and again reaches a text that formatting never changes any more, after four formattings at most. Four are needed: a step of which only empty limits are given loses the limits, then the resources, then the step itself.", "quantifier": "all manifests whose resources survive formatting; any number of formattings", "why_tests_cant": "The printer tests format each fixture once; idempotence after several rounds over all manifests is not observable from them.", "anchors": ["main.go:86-101", "yaml/pretty/container.go", "yaml/pretty/pipeline.go", "yaml/pretty/secret.go", "yaml/pretty/cron.go"]}
{"id": "C96", "title": "Signing a formatted file gives a formatted file that verifies", "statement": "Signing a file that the program has printed gives exactly the text the program prints for the same resources with the old signatures left out and the new signature at the end, and that file verifies. If formatting leaves the file alone before it is signed, it leaves it alone afterwards, so that `fmt --save`, `sign --save`, `fmt --save` and `verify` in this order succeed. In general formatting keeps the signature as it is, so that the formatted file verifies exactly if formatting the file before signing it would have given the same signature. Formatting once more can break the signature of a file that was formatted only once.", "quantifier": "all manifests whose strings the printer writes readably; all keys of at least 32 bytes; all 32 byte MACs; all YAML parsers that agree with the grammar", "why_tests_cant": "The signer tests sign fixed byte strings with one key and never print or format what was signed; no test compares the bytes the signer writes with the bytes the printer writes.", "anchors": ["yaml/signer/signer.go:30-71", "yaml/signer/signer.go:75-140", "yaml/pretty/signature.go", "yaml/pretty/pretty.go", "main.go:86-101", "main.go:139-181"]}
{"id": "C97", "title": "Encoding a manifest and parsing it gives the manifest back", "statement": "What `Encode` writes for a manifest is parsed again as the same resources in the same order, where only variables and settings can differ: one with nothing in it becomes null, one with both a value and a secret keeps the secret only, and whole numbers of up to six digits written as floats become integers. So the manifest comes back as it was exactly if every variable and setting has a value or a secret, not both, and no such floats. A file that could be formatted cannot be formatted any more after `Encode` exactly if a step or service has an empty variable or setting: the printer panics.", "quantifier": "all manifests; every YAML library whose reader reads back the trees that its writer writes", "why_tests_cant": "No test encodes a manifest with more than a single trivial field and parses it again; agreement of every MarshalYAML with its UnmarshalYAML and of every struct tag over all values is not sampled.", "anchors": ["yaml/manifest.go:114-124", "yaml/parse.go:36-87", "yaml/env.go", "yaml/param.go", "yaml/build.go", "yaml/cond.go", "yaml/unit.go", "yaml/push.go", "yaml/pretty/container.go"]}
{"id": "C98", "title": "The pipelines of a build matrix", "statement": "A legacy file with a matrix is converted into one pipeline per axis, named matrix-1, matrix-2 and so on. It has the containers whose matrix condition the axis meets, and in every string of it the references ${KEY} to keys of the axis stand replaced by their values; nothing else changes, provided that the text with the values filled in is still read as strings. If a container that is kept has a variable or setting with nothing in it, the conversion panics, although the same file without a matrix is converted. A setting that consists of a reference to a version such as 1.10 becomes the number 1.1.", "quantifier": "all legacy configurations; all axes; all YAML libraries that read back what they write", "why_tests_cant": "The fixtures contain three matrices; whether encoding, replacing and decoding into the old value keep every field of every pipeline is not sampled, and no fixture has an empty variable.", "anchors": ["yaml/converter/legacy/internal/config.go:184-251", "yaml/converter/legacy/matrix/matrix.go", "yaml/env.go", "yaml/param.go", "yaml/pretty/container.go"]}
{"id": "C99", "title": "Manifests as JSON", "statement": "MarshalJSON fails exactly if some setting contains a map. Otherwise UnmarshalJSON appends all resources of the manifest to the receiver, in order and unchanged, empty variables and settings included, but for the numbers in settings, which become doubles. So the manifest is read back as it was exactly if no setting contains an integer, and what was read once is kept by further passes. Integers of up to 53 bits keep their value, 2^53+1 does not; the variable of a step changes exactly if the double has another text (1000000 becomes 1e+06). Whatever JSON is read, every resource has the type that its Kind names, also if keys are written in another case or more than once.", "quantifier": "all manifests whose resources have the kind of their type, in particular all parsed files; all JSON texts for the kinds", "why_tests_cant": "The repository compares some parsed files with golden JSON; the fields, the omitted zero values, the misspelt option of the registry and the numbers of all settings are not sampled.", "anchors": ["yaml/manifest.go:58-103", "yaml/pipeline.go", "yaml/cron.go", "yaml/secret.go", "yaml/registry.go", "yaml/signature.go", "yaml/cond.go", "yaml/build.go", "yaml/env.go", "yaml/param.go", "yaml/push.go", "yaml/port.go"]}
{"id": "C100", "title": "Converted files run the original scripts", "statement": "The text converted from a GitLab file is parsed as one pipeline per stage, in order and each depending on the one before, with exactly the jobs of the stage; without stages every job is a pipeline. The text converted from a Bitbucket file is parsed as one pipeline with the steps selected for the reference, cloned to the given depth. Linted and compiled, every job or step runs one script file: the global commands, its own and again the global ones, each announced before, in its image or the global one.", "quantifier": "all GitLab and Bitbucket configurations whose strings survive formatting, all orders of map iteration, all compilers with standard workspace functions", "why_tests_cant": "The fixtures compare converted text with golden files; whether that text is parsed and compiled into the original commands crosses five packages and holds for arbitrary strings or not at all.", "anchors": ["yaml/converter/gitlab/convert.go: Convert", "yaml/converter/bitbucket/convert.go: Convert", "yaml/pretty/pretty.go: Print", "yaml/parse.go: Parse", "yaml/compiler/compiler.go: Compile"]}
{"id": "C101", "title": "Where a converted legacy pipeline runs", "statement": "Given a link to the repository, the steps of a converted legacy file run, after compiling, in the path of the file below its base, by default in src/HOST/PATH of the link below /drone; a path '.' counts as not given. Without a link the defaults are /drone/src and nothing. Converted for Kubernetes the base is empty and the path leads to the same place, unless it was '.', which then means the base; but compiled by this library such a pipeline runs in that place below /drone/src.", "quantifier": "all legacy configurations and links", "why_tests_cant": "Base, path, link and the environment variable combine, and where the result leads depends on path cleaning over arbitrary strings.", "anchors": ["yaml/converter/legacy/internal/config.go: Convert, toWorkspacePath", "yaml/compiler/workspace.go: createWorkspace"]}
{"id": "C102", "title": "What a converted legacy file means", "statement": "The text converted from a legacy file without a matrix is parsed as one pipeline followed by one secret per declaration. Its steps are the clone and pipeline containers in order, its services the services, each with the same image, commands, options, conditions, variables and settings; every mount leads to the host directory of the file; compiled, every step has the plain variables and settings of the file and runs its commands. Variables with an empty value are lost, and so are the names of secrets without a place.", "quantifier": "all legacy files without a matrix whose strings survive printing, all map orders, callbacks and random names", "why_tests_cant": "The claim goes through converter, printer, parser, linter and compiler for arbitrary strings, maps and numbers of containers; a sample file shows one path through them.", "anchors": ["yaml/converter/legacy/internal/config.go: Convert, toContainer, toEnvironment, toSettings, toVolumes, toSecrets", "yaml/pretty/pretty.go: Print", "yaml/parse.go: Parse", "yaml/compiler/compiler.go: Compile"]}
{"id": "C103", "title": "Converted files are already formatted", "statement": "Formatting the text that a converter writes gives the same text: `fmt` after `convert` changes nothing. The exceptions are lists and maps all of whose entries are empty: a legacy container with only empty variables is written with an `environment` without entries, which formatting removes.", "quantifier": "all GitLab, Bitbucket and legacy files whose strings survive printing; all manifests in which nothing empty is listed", "why_tests_cant": "Whether the printer writes what it would write again after parsing depends on every field of the manifest; golden files compare the output of one conversion with itself and never format it again.", "anchors": ["yaml/pretty/pretty.go: Print", "yaml/pretty/container.go: printContainer, printEnviron, printSettings", "yaml/pretty/pipeline.go: printPipeline, printPlatformDefault", "yaml/converter/legacy/internal/config.go: Convert", "yaml/converter/gitlab/convert.go: Convert", "yaml/converter/bitbucket/convert.go: Convert", "main.go: runFormat"]}
{"id": "C104", "title": "Names of converted GitLab services, and which converted GitLab files pass the linter", "statement": "Every service of a GitLab file appears in every converted pipeline, in order; it is called by its alias, else by its image in the short form (no tag, digest, Docker Hub host or library namespace) with two underscores for every slash. The linter accepts a converted pipeline exactly if its jobs and services have images, no job or service is called clone, the names of the services differ from each other and from those of the jobs of the stage. So two versions of one image as services, without alias, make every converted pipeline unusable, and different images can get the same name.", "quantifier": "all GitLab configurations, with and without stages; all image names; all orders of the loops over the jobs", "why_tests_cant": "The name goes through parsing and shortening of arbitrary image names, and whether names clash depends on all services and jobs together; the golden files have one or two services with different simple images.", "anchors": ["yaml/converter/gitlab/convert.go: Convert, serviceSlug", "yaml/compiler/image/image.go: Trim", "yaml/linter/linter.go: checkPipeline, checkContainer"]}
{"id": "C105", "title": "An accepted pipeline can be run to the end", "statement": "If steps start as soon as everything they depend on has finished, the compiled form of a pipeline accepted by the linter never gets stuck: however far a run has come, it can be continued until every step has run, each exactly once, and with step dependencies nothing runs before the clone step. The exact condition is that services depend only on names in the pipeline and not on each other in a circle, which the linter does not check: such accepted pipelines never start those services.", "quantifier": "every pipeline accepted by the linter, every order in which ready steps are taken; every dependency graph", "why_tests_cant": "The number of schedules grows with the factorial of the number of steps, and graphs are unbounded.", "anchors": ["yaml/compiler/compiler.go: Compile (isSerial, DependsOn)", "yaml/linter/linter.go: checkPipeline, checkDeps"]}
{"id": "C106", "title": "Which files crash the converters", "statement": "A legacy file without a matrix makes Convert panic if and only if some container lists an empty item under volumes or secrets. With a matrix it panics in these cases, if a variable has no values while the variable visited last has some, and if a pipeline read back has an empty entry. A GitLab file makes it panic iff a job is empty, or a service is empty and there is at least one stage. A Bitbucket file makes it panic iff an entry of the chosen pipeline has no step (for example parallel steps) or a service is empty. Every other file is returned unchanged, and a decodable file that does not panic is converted.", "quantifier": "all configurations, iteration orders and library behaviours", "why_tests_cant": "absence of panics for all inputs and map orders; the order dependence of the matrix is not reproducible in a test", "anchors": ["yaml/converter/convert.go: Convert", "yaml/converter/legacy/internal/config.go: Convert", "yaml/converter/legacy/matrix/matrix.go: calc", "yaml/converter/gitlab/convert.go: Convert", "yaml/converter/bitbucket/convert.go: Convert"]}
{"id": "C107", "title": "Foreign files: every key fills its own field", "statement": "Reading a legacy, GitLab or Bitbucket file puts the value of each key into the field of that key and nothing else: if a key is repeated the later value is added to the earlier one by the decoder of that field, and unknown keys are ignored. The exceptions are legacy containers, where every key without a meaning of its own becomes a plugin setting, and GitLab files, where every such key is a job. Legacy containers, GitLab files, GitLab jobs and Bitbucket steps are refused if and only if some key is not a text or some value does not fit its key. Consequently, in a GitLab file without stages each unknown global key becomes a pipeline of its own.", "quantifier": "all YAML mappings", "why_tests_cant": "all combinations of keys, in any order, with repetitions; a key read into the wrong field shows only for some combinations", "anchors": ["yaml/converter/legacy/internal/container.go: Container", "yaml/converter/legacy/internal/config.go: Config", "yaml/converter/legacy/internal/constraint.go: Constraints", "yaml/converter/gitlab/config.go: UnmarshalYAML", "yaml/converter/bitbucket/config.go: Config"]}
{"id": "C108", "title": "What is accepted as a number, a truth value, a text or a size", "statement": "A field of integer type accepts exactly integers of 64 bits with sign, floats up to 2^63 and null; a float is cut off toward zero, and 2^63 or one below -2^63 silently becomes -2^63. A Boolean field accepts exactly Booleans and null, so that a quoted true is refused. A float field accepts integers, floats and null. A text field accepts every scalar as it is written. A size accepts what an integer accepts and otherwise a scalar whose text is a size; lists and mappings are refused. Whatever is refused is reported as an error and leaves the field unchanged.", "quantifier": "all YAML nodes, all previous values, all size parsers", "why_tests_cant": "all numbers, including the rounding of every rational", "anchors": ["yaml/unit.go: UnmarshalYAML", "vendor gopkg.in/yaml.v2 decode.go: scalar"]}
{"id": "C109", "title": "Which converted legacy and Bitbucket files the linter accepts", "statement": "A legacy file without a matrix is accepted by the linter after conversion exactly if its steps, once a repeated name has got the number of the step, and its services have different names, none of them clone unless the file brings or is given its own clone step, all containers have a name and an image, and in an untrusted repository no container is privileged or sets dns, dns_search or extra_hosts and no step or service has volumes. The pipeline of a matrix axis is accepted exactly if this holds of the containers it keeps, in their multiplicity and with the values filled in, where volumes count even if nothing that is kept mounts them; so a container that meets two entries of its matrix condition makes the pipeline unusable. Mounts keep leading to the host directory, with the values filled in. A Bitbucket file is accepted exactly if names, counting step_i for nameless steps, and services differ and are not clone, and everything has an image.", "quantifier": "all legacy and Bitbucket configurations, environments, axes and map orders", "why_tests_cant": "name clashes depend on all names of the file, on the renaming and on the values of each axis", "anchors": ["yaml/converter/legacy/internal/config.go: Convert, toVolumes", "yaml/converter/bitbucket/convert.go: Convert", "yaml/linter/linter.go: checkPipeline, checkContainer, checkVolumes"]}
{"id": "C110", "title": "What stands behind a line of 64 KiB or a terminator is dropped by all commands alike", "statement": "If a file goes on, on a new line, with a line of 65536 bytes or more, or (not at its beginning) with a line that begins with three dots, then parsing, signing, updating a signature and verifying give exactly what they give for the part before, without an error, whatever follows. Every command but convert has the same result, the same output and leaves the same file behind as for the part before: fmt --save and sign --save succeed and delete the rest of the file, and verify accepts a signed file to which anything was appended behind such a line. A printed manifest with a long line is read again up to that line: of the resources after it nothing is left, whatever the YAML library does.", "quantifier": "all files, all appended bytes, keys, flags, YAML libraries and manifests", "why_tests_cant": "the claim is about arbitrary content after the line, and about all commands at once", "anchors": ["yaml/parse.go: ParseRaw", "yaml/signer/signer.go: Sign, SignUpdate, Verify, WriteTo", "main.go: runFormat, runLint, runSign, runVerify, runCompile", "yaml/pretty/pretty.go: Print"]}
{"id": "C111", "title": "What a converted legacy file with a build matrix means when it is run", "statement": "A legacy file with a matrix is converted to a text that is parsed as one pipeline for every axis, called matrix-1, matrix-2 and so on, and the declared secrets. The pipeline of an axis has exactly the steps and services that the axis selects, in order, each with the name, image, commands, entrypoint, DNS settings, variables, secrets, settings, mounts and conditions of the container of the file, with the values of the axis filled in; trigger, workspace and host directories are those of the file with the values filled in. Compiled, every such step runs the commands of the file, with image, variables and settings, with the values filled in.", "quantifier": "all files with a matrix, environments, axes, parsers that agree with the grammar, compiler configurations", "why_tests_cant": "the claim spans conversion, substitution in the encoded text, printing, parsing and compiling, for every axis and every text", "anchors": ["yaml/converter/legacy/internal/config.go: Convert", "yaml/converter/legacy/matrix/matrix.go: Parse", "yaml/pretty/pretty.go: Print", "yaml/compiler/compiler.go: Compile"]}
{"id": "C112", "title": "Which JSON is read as a manifest, and as what", "statement": "UnmarshalJSON succeeds exactly on null and on lists of objects whose version, kind and type are strings or null and in which every entry that names, up to case, a field of the resource type of its kind has a value of the type of that field at every depth, or null; other entries do not matter, and the last entry for the kind counts. If no field is given twice, the resource read is the only one the text describes: every field has the value of its entry, up to the rounding of numbers to doubles, null and missing ones are zero values, null in a list of strings is the empty string and in a list or map of objects nil. If it fails on a list, exactly the objects before the first unacceptable one have been appended to the receiver.", "quantifier": "all JSON texts, all receivers, all comparisons up to case", "why_tests_cant": "every JSON text, not only those written by MarshalJSON: any combination of missing, null, repeated, unknown and wrongly typed entries at any depth", "anchors": ["yaml/manifest.go: UnmarshalJSON", "yaml/pipeline.go: Pipeline, Container", "yaml/cron.go: Cron", "yaml/secret.go: Secret", "yaml/registry.go: Registry", "yaml/signature.go: Signature"]}
{"id": "C113", "title": "Which transforms may change places", "statement": "Combine gives the same specification, and panics in the same cases, in whatever order it is given transforms of which no two are about the same thing, or that both only choose which steps run (Include, Exclude, ResumeAt). Exceptions, for each of which the order does matter: asking for secrets and choosing which steps run (asked first, the secrets of the steps left out are asked for too), labels and volumes (labels given first do not reach the volumes added), and secrets and volumes among each other (their random identifiers come from one source). Of two sets of variables the later wins, and of two pairs of limits the later alone counts.", "quantifier": "all specifications, all transforms of the package with all arguments, all orders", "why_tests_cant": "every permutation of every list of transforms on every specification", "anchors": ["yaml/compiler/transform/combine.go: Combine", "yaml/compiler/transform/filter.go: Include, Exclude, ResumeAt", "yaml/compiler/transform/secret.go: WithSecrets, WithSecretFunc", "yaml/compiler/transform/volume.go: WithVolumes", "yaml/compiler/transform/labels.go: WithLables"]}
{"id": "C114", "title": "Which YAML is read as a manifest, and as what", "statement": "Parse succeeds exactly if every document is a map (no key a list or a map) whose last kind is a scalar that is not empty, whose version and type, if given, are scalars, and which has, under every key that the resource for the kind knows, a tree acceptable for that key: a scalar for a string, an integer of 64 bits for a number, a list of acceptable trees for a list, a map for a struct, a scalar or a map for what has a short form, anything at all for a condition, null for everything; keys not known do not matter. What is read is what the documents say, key by key: one resource per document, in order, of the type the kind stands for; null or a missing key gives the zero value, a null element of a list of steps is kept as nil. A document in which no key is given twice says one thing only.", "quantifier": "all streams, all trees of their documents, all size parsers", "why_tests_cant": "every combination of keys and values of every resource type, including those that must be refused", "anchors": ["yaml/parse.go: Parse, ParseBytes, ParseRaw", "yaml/pipeline.go: Pipeline, Container", "yaml/cond.go: Condition.UnmarshalYAML", "yaml/param.go: Parameter.UnmarshalYAML", "yaml/port.go: Port.UnmarshalYAML", "yaml/env.go: Variable.UnmarshalYAML", "yaml/build.go: Build.UnmarshalYAML", "yaml/push.go: Push.UnmarshalYAML", "yaml/unit.go: BytesSize.UnmarshalYAML"]}
{"id": "C115", "title": "Which foreign files are read, and as what", "statement": "A legacy drone file, a GitLab file and a Bitbucket file are read exactly if they have, under every key known there, a tree acceptable for that key: a section of containers must be a map with scalar keys, each container a map or null, with all keys it does not know collected as settings; an image, a list of names, an environment, secrets, volumes and constraints have their short forms; a GitLab file reads every key that is not a keyword as a job; a Bitbucket file is made of an image, a clone depth, pipelines (default, and for tags and branches) of lists of steps, and definitions of services. What is read is what the file says, key by key, and, if no key is given twice, the file determines it. Of a section of containers given twice, all containers are read, in order. A matrix is read as axes or as a list of builds, according to its own two forms. converter.Convert refuses exactly the Bitbucket and GitLab files that have no tree or one that does not fit, and the legacy files that have no tree, or do not fit, or whose matrix is neither axes nor builds, or one of whose pipelines for a build cannot be written and read back; other files never.", "quantifier": "all trees, all ways to write the scalars of the legacy pipeline, all file names and contents", "why_tests_cant": "every combination of keys and values of three file formats, including all that must be refused", "anchors": ["yaml/converter/legacy/internal/config.go: Config", "yaml/converter/legacy/internal/container.go: Containers.UnmarshalYAML", "yaml/converter/legacy/internal/constraint.go: Constraint.UnmarshalYAML", "yaml/converter/legacy/internal/secret.go: Secrets.UnmarshalYAML", "yaml/converter/legacy/internal/volume.go: Volume.UnmarshalYAML", "yaml/converter/legacy/matrix/matrix.go: Parse", "yaml/converter/gitlab/config.go: Config, Job, Image.UnmarshalYAML", "yaml/converter/bitbucket/config.go: Config, Stage.UnmarshalYAML", "yaml/converter/convert.go: Convert"]}
{"id": "C116", "title": "Parsing does not depend on how the bytes arrive", "statement": "Parse and ParseRaw return, for every reader that obeys the contract of io.Reader, gets to its end and never makes no progress more than 100 reads in a row, exactly what ParseBytes and ParseRawBytes return for the bytes it handed out: however it splits them into reads, and whether it ends with the end of the file or with an error. ParseFile and ParseRawFile fail exactly in addition if the file cannot be opened. In particular an error while reading is never reported: what was read before it counts as the whole, and a directory is an empty manifest. Exception: a last line of exactly 65536 bytes without newline is read if the reader reports the end together with its last bytes, and ignored otherwise.", "quantifier": "all readers, all ways to split all contents, all errors", "why_tests_cant": "all sequences of reads of all sizes, against a buffer that grows, shifts and has a limit", "anchors": ["yaml/parse.go: Parse, ParseFile, ParseRaw, ParseRawFile"]}
{"id": "C117", "title": "Patterns of a Bitbucket file", "statement": "A branch or tag pattern of a Bitbucket file matches only names it stands for in the documented language (literals, escapes, ?, *, classes; stars, question marks never stand for a slash), and every name it stands for if none of its classes has a slash; a badly written pattern matches nothing. If the tag patterns have fewer than two slashes, a branch build gets the steps of a branch pattern standing for the branch, or the default ones exactly if there is none; likewise for tag builds.", "quantifier": "all patterns, names, configurations and iteration orders", "why_tests_cant": "a greedy search that never goes back behind a star must not miss a match for any pattern and name", "anchors": ["yaml/converter/bitbucket/config.go: Pipeline"]}
{"id": "C118", "title": "What a shell does with the script of a step", "statement": "A POSIX shell that runs the script mounted for a compiled step writes .netrc with the given credentials exactly if a machine is set, removes the four credential variables, and then executes the commands of the step, line by line, in order, each announced by its text, until one fails or ends the shell; what follows is not run. The step passes exactly if all its commands pass, unless one of them exits by itself or switches set -e off. The values of the credential variables influence the outcome only through .netrc.", "quantifier": "all commands without backquotes whose lines are complete commands, all behaviours of the commands, all initial states", "why_tests_cant": "all behaviours of all commands in all states; absence of influence of a secret cannot be tested", "anchors": ["yaml/compiler/script_posix.go: setupScript, buildScript, traceScript"]}
{"id": "C119", "title": "What PowerShell does with the script of a step", "statement": "On Windows, PowerShell that runs the script in the CI_SCRIPT variable of a compiled step writes _netrc with the given credentials exactly if a machine is set, removes the credentials and the script from the variables, and then executes the statements of the commands in order, each command announced by its text, until one ends the script or leaves an exit code other than zero, which becomes the exit status; what follows is not run. The step does not pass before all commands were run, unless one of them exits by itself or the exit code has no value. The values of the hidden variables influence the outcome only through _netrc. An unpaired apostrophe in the last command keeps the whole script from running.", "quantifier": "all commands that leave nothing open and whose single quotes come in pairs, all behaviours of statements, all initial states", "why_tests_cant": "all behaviours of all commands in all states; absence of influence of a secret cannot be tested", "anchors": ["yaml/compiler/script_win.go: setupScriptWin, buildScriptWin, traceScriptWin"]}
{"id": "C120", "title": "A container compiles by itself", "statement": "The same step or service, in two pipelines with the same clone section, workspace and platform, compiles to the same step, wherever it stands and whatever the other containers are: command, variables, secrets, mounts, policies and limits are the same. Only identifiers differ, the image if the pipeline builds it, and the dependency on the clone step exactly if the steps of one pipeline only name dependencies. So editing one step, without touching dependencies or build sections, changes no other compiled step, and no variable or secret of one step reaches another.", "quantifier": "all pairs of pipelines that share a container, all positions, all compilers with the library's workspace functions, all random identifiers", "why_tests_cant": "absence of influence between containers, over all pairs of pipelines", "anchors": ["yaml/compiler/compiler.go: Compile", "yaml/compiler/step.go: createStep, createBuildStep"]}
{"id": "C121", "title": "Shared arrays are not overwritten", "statement": "Lists in Go are windows on arrays, and append may write into an array that others look at. Nobody sees such a write: converting a GitLab file gives every step its own commands although all of them start from the same before_script list, and no list of the file changes; compiling gives every step the dependencies declared for it and leaves the lists of the pipeline as they were, provided no list shows the free cell after a list to which the clone step is added - exactly that condition is needed, and lists decoded from a file meet it. Compiling the same pipeline again changes nothing that was made before.", "quantifier": "all arrays, all lists within them with all overlaps, all ways append chooses the size of a new array, all jobs and all containers", "why_tests_cant": "whether append writes in place depends on capacities that the runtime chooses; a test sees one of them", "anchors": ["yaml/converter/gitlab/convert.go: Convert", "yaml/compiler/compiler.go: Compile", "yaml/compiler/step.go: createStep, createBuildStep"]}
{"id": "C122", "title": "The signature is the HMAC-SHA256 of the documents, and which keys are the same key", "statement": "The signature of a file is the HMAC-SHA256, as RFC 2104 and FIPS 180-4 define it, of the concatenation of all documents that are not signatures, although they are handed to the hash one by one and the hash buffers partial blocks. It has 32 bytes. The comparison in constant time is equality. Different texts of 32 to 64 bytes are different keys; a key with zero bytes appended up to 64 bytes, and the hash of a key of more than 64 bytes, are the same key: what is signed with one verifies with the other.", "quantifier": "all files, all ways to cut them into documents, all keys, all messages", "why_tests_cant": "buffering behaves differently for every position of a document boundary relative to the blocks of 64 bytes; equivalence of keys is about all pairs of keys and all files", "anchors": ["yaml/signer/signer.go: Sign, SignUpdate, Verify, sign"]}
{"id": "C123", "title": "Floating point numbers in settings and limits keep their value in the texts written for them", "statement": "The text that is written for a floating point number, alone or inside JSON, is read as the same number by any reader that goes to the nearest floating point number; different numbers have different texts. No shorter decimal number is read as it, and none of the same length is nearer. A decimal number of at most fifteen digits that is not tiny comes back exactly. The two notations differ exactly between 1e-9 and 1e-4 and between 1e6 and 1e21: a plugin that gets the same number alone and inside a map sees two texts. A number is written like an integer exactly if it is whole and less than a million; then, and only then, it changes its type when a formatted file is read. A limit for the processors always survives formatting. The texts are JSON numbers and plain YAML scalars.", "quantifier": "all floating point numbers with 53 bits, all decimal numbers they can be read from", "why_tests_cant": "there are 2^64 floating point numbers; shortness is a statement about all decimal numbers that are read as one of them, and the boundary cases are single numbers", "anchors": ["yaml/compiler/encode.go: encode, encodeMap, encodeSlice", "yaml/pretty/writer.go: writeFloat", "yaml/pretty/writer.go: writeScalar"]}
{"id": "C124", "title": "What the linter says is true, and it is said of the first defect", "statement": "Every message of the linter names a defect the resource has: the step, volume, platform or dependency it speaks of is in the file and breaks the rule in question. A resource is accepted exactly if it has none of these defects and no null entry that the linter looks into; it panics only on such an entry. Whatever follows the first refused step or service does not change the message, and the message for a refused step speaks of that step. A message that speaks of untrusted repositories is never given to trusted ones, and any other message is the same with and without trust. Only a step that lists itself is called a cycle: two steps that wait for each other are refused as an unknown dependency. The same holds for the messages about the pipelines of a file taken together, and the lint command reports the first resource with a defect.", "quantifier": "all resources, trusted or not, all files, all continuations of a refused pipeline", "why_tests_cant": "tests compare single files with single messages; that no file gets a message that is false of it is a statement about all files and all orders of the checks", "anchors": ["yaml/linter/linter.go: Lint, checkPipeline, checkContainer, checkVolumes, checkDeps", "yaml/linter/config.go: Manifest, checkPipelines", "main.go: runLint"]}
{"id": "C125", "title": "Anchors, aliases and merge keys mean what they stand for", "statement": "A document with anchors and aliases is read as the tree it stands for, which is unique; it is refused exactly if it stands for none, in particular if it uses, directly or through other anchors, one that does not exist or that contains itself. Writing out an alias wherever it is used changes nothing. The entries of a merged map are read at the place of the merge key, those of a list of maps so that earlier maps decide. In a step whose merge keys come first, each key that is written decides over the merged one, except that variables, settings and conditions of both are united. A written key does not count if the merge key comes after it.", "quantifier": "all documents, all sets of anchors, all steps and merged maps", "why_tests_cant": "anchors nest and repeat without bound, and the order and overlap of merged and written keys is arbitrary", "anchors": ["yaml/parse.go:94", "yaml/pipeline.go: struct tags", "yaml/cond.go:78-102"]}
{"id": "C126", "title": "Manifests survive as JSON texts, which are read as the grammar says", "statement": "The reader of JSON accepts exactly the texts of the JSON grammar (in UTF-8) and reads each as the one tree it stands for: escapes, surrogate pairs, white space and the notation of numbers included. What is written for a tree, compact or indented, is such a text and stands for that tree; it contains no control characters and none of the characters that matter in HTML or JavaScript, whatever strings the tree holds. Hence the bytes MarshalJSON writes, given to UnmarshalJSON, append the resources to the receiver with integers of settings as floating point numbers, exactly the same resources if no setting has an integer; UnmarshalJSON accepts exactly the texts of null or of a list of objects that have a known kind and fitting fields; and texts that stand for the same tree are read alike.", "quantifier": "all trees, all texts, all byte strings, all manifests and receivers", "why_tests_cant": "texts nest without bound, strings hold any characters and numbers have many notations; that nothing else is accepted or confused cannot be sampled", "anchors": ["yaml/manifest.go:66-98", "yaml/manifest.go:101-103", "main.go:305-307"]}
{"id": "C127", "title": "What small changes to a file do to its validity", "statement": "A step can be added at the end of an accepted pipeline exactly if it is fine by itself, has a name of its own and depends on steps that are there; a service likewise, whatever it depends on. A step can be removed exactly if none depends on it, and two neighbours can change places exactly if the second does not depend on the first. Services can be removed and put in any order. Other names for steps, services and pipelines, and other commands, variables, settings, conditions or limits, make no difference, not even to the error that is reported. Trust is needed exactly for privileged mode, devices, dns, extra hosts, networks, host ports, host volumes and volumes in memory. Accepted manifests can be put one after the other exactly if no pipeline names are common; resources that are not pipelines do not matter to the manifest; a beginning of an accepted manifest is accepted; pipelines can be removed or exchanged under the same conditions as steps.", "quantifier": "all pipelines, containers, lists of resources, injective renamings, trusted or not", "why_tests_cant": "relations between the results for a file and for arbitrary changes of it", "anchors": ["yaml/linter/linter.go:68-111", "yaml/linter/linter.go:129-168", "yaml/linter/linter.go:223-234", "yaml/linter/config.go:41-81"]}
{"id": "C128", "title": "The script of a step determines its commands, its log only those that can be printed", "statement": "Different lists of commands give different scripts, on both platforms: no command can pass for several commands, for a trace, or for a command with a trace. In the log a command shows as it is exactly if all its characters can be printed; such commands show differently if they differ. Others need not: a line feed shows like a backslash and an n. On Windows commands without single quotes that differ show differently, whatever their characters.", "quantifier": "all lists of commands, all notions of printable characters", "why_tests_cant": "injectivity relates all pairs of inputs", "anchors": ["yaml/compiler/script_posix.go:28-41", "yaml/compiler/script_posix.go:81-84", "yaml/compiler/script_win.go:28-41"]}
{"id": "C129", "title": "What the compiler does not look at", "statement": "Two pipelines compile to the same if they differ only in what is not looked at: version, concurrency, depends_on, node, image_pull_secrets and trigger of the pipeline; devices, shell, push and all conditions except status of a container (as far as the callbacks answer alike); build arguments and labels; entrypoint and command beside commands; the working directory, unless the container is detached and has no commands; variables and settings without a value; mounts of the volume _docker_socket; most of a container with a build section; the host path of an empty directory; the settings of a disabled clone. Conversely what is compiled determines name, kind, type and platform and most scalar settings of each container.", "quantifier": "all pairs of pipelines, all compilers and callbacks", "why_tests_cant": "non-interference relates all pairs of inputs; a test changes one key of one file", "anchors": ["yaml/compiler/compiler.go:71-262", "yaml/compiler/step.go:26-204", "yaml/compiler/clone.go:55-63", "yaml/pipeline.go:58-86"]}
{"id": "C130", "title": "What may be changed in a signed file without the key", "statement": "The signature of a file without signature documents is determined by, and determines, the lines of its documents in order; where the separators are, what stands behind their dashes and what stands behind a terminator does not count. So whoever has a signature can put it under every file with the same lines. Inserting or removing a separator between two lines does not change the verdict as long as both files are read and have the same signature documents, whatever the key. Moving one can change what is run: a signed pipeline for one branch can be made to run for all branches and the file still verifies.", "quantifier": "all files, all places of a separator, all keys and MACs", "why_tests_cant": "the claim is about all pairs of files with the same signature; a test verifies one file", "anchors": ["yaml/parse.go:100-140", "yaml/parse.go:169-175", "yaml/signer/signer.go:30-128"]}
{"id": "C131", "title": "Where the values of secrets and credentials end up", "statement": "Compiling a pipeline and applying any transforms of the library gives the same, whatever the values of the secrets, the credentials for cloning, the netrc credentials and those for registries are, except in the places made for them: the data of the secrets, user name and password of the registry entries, the contents of the file .git-credentials and four netrc variables. In particular values of secrets, registry passwords and clone credentials never reach a step, and whether the compiler or a transform panics does not depend on them.", "quantifier": "all pipelines, compilers, lists of transforms and pairs of values", "why_tests_cant": "non-interference relates all pairs of values; a test looks at one", "anchors": ["yaml/compiler/compiler.go:71-262", "yaml/compiler/clone.go:66-97", "yaml/compiler/transform/secret.go:24-76", "yaml/compiler/transform/netrc.go:34-82", "yaml/compiler/transform/auths.go:21-41", "yaml/compiler/transform/combine.go:21-27"]}
{"id": "C132", "title": "What the converter converts, in both builds and from the command line", "statement": "A file with the name of a GitLab or Bitbucket file or with a line `pipeline:` is refused or becomes a printed manifest, which no build converts again; any other file is returned as it is. Under any other name the build with the tag oss agrees with the full one exactly on files without such a line. The reference matters only for Bitbucket files and the address only for legacy files. The convert command takes the path for the name and passes no reference: a GitLab file given with a directory is printed unconverted, and of a Bitbucket file the default pipeline is converted unless a pattern matches the empty name.", "quantifier": "all files, names, metadata, libraries and file systems", "why_tests_cant": "covers all contents and names, and all pairs of metadata", "anchors": ["yaml/converter/convert.go:17-46", "yaml/converter/convert_oss.go:19-29", "main.go:103-122", "yaml/converter/bitbucket/config.go:75-93"]}
{"id": "C133", "title": "Which variables the commands of a step see", "statement": "In a step that the compile command prints, each variable has the value given by the first of these that sets it: the proxy of the machine, the netrc flags, the flags of the build, --env, the workspace, the settings and the environment of the container; no other variables are set. A shell, or PowerShell, started with them runs the commands of the step in order, each seeing these values, without the credentials; if netrc flags are given, .netrc holds exactly those whatever the file says. On Windows the script is a variable too, which only --env can replace.", "quantifier": "all manifests, flags, variables, shells and commands without backquotes", "why_tests_cant": "precedence is a law about all names and all combinations of sources, composed over file, flags, transforms and shell", "anchors": ["main.go:255-281", "main.go:326-339", "yaml/compiler/step.go:88-131", "yaml/compiler/workspace.go:55-75", "yaml/compiler/transform/env.go:21-29", "yaml/compiler/transform/netrc.go:34-82", "yaml/compiler/transform/proxy.go:24-63", "yaml/compiler/script_posix.go:27-84"]}
{"id": "C134", "title": "What the linter does not look at", "statement": "Two pipelines that agree in names, in whether containers have images, in the dependencies of steps, the names of volumes, operating system and architecture and, for untrusted repositories, in what only trusted ones may use, get the same answer from the linter, down to the message. So commands, variables, settings, conditions, resources, triggers and the like never count; each thing named does. The checks across resources look only at names, dependencies, kinds, types and platforms of pipelines, not at trust. Neither the lint nor the compile command looks at trigger, depends_on, node, concurrency, image_pull_secrets, version, shell, push or build arguments and labels.", "quantifier": "all pairs of pipelines and manifests, trusted or not, all flags", "why_tests_cant": "says for all pairs of inputs that a difference has no effect", "anchors": ["yaml/linter/linter.go:51-234", "yaml/linter/config.go:41-81", "main.go:124-137", "main.go:209-282"]}
{"id": "C135", "title": "The signature of a formatted file fixes all of it", "statement": "A signature does not cover where one document ends and the next begins (C130), but of a formatted file it does, because each printed document begins with its version and kind at the beginning of a line and no later line begins so. Two formatted files, all of whose resources have a kind, with the same signature are byte for byte the same; two formatted and signed files with the same signature value that verify under one key print the same without their signatures, are read as the same resources apart from signatures, and run as the same. All this unless their contents are a collision of the MAC.", "quantifier": "all pairs of manifests, all keys and MACs, all YAML libraries (for the resources read: all that agree with the grammar, and manifests that survive formatting)", "why_tests_cant": "injectivity over all pairs of files; a test sees a few pairs", "anchors": ["yaml/pretty/pretty.go:24-41", "yaml/pretty/pipeline.go:25-96", "yaml/pretty/cron.go:20-49", "yaml/pretty/secret.go:27-89", "yaml/pretty/signature.go:22-29", "yaml/signer/signer.go:30-128"]}
{"id": "C136", "title": "Random identifiers are only names", "statement": "The identifiers drawn at random while compiling serve as names and nothing else: if the random source is exchanged for another one, compiling a pipeline without build steps (and applying the library's transforms in any number and order, WithVolumes with its generated volume names included) gives the same specification with the identifiers exchanged, and panics in the same cases. Scripts, variables, images, paths, labels, step names, dependencies and secrets data do not change. With build steps the same holds up to the image a step runs from and the alias variable of a built image. Given a source that never repeats an identifier there is one exchange of identifiers that does this for all transforms; and the compile command behaves the same way.", "quantifier": "all pipelines, compilers with the library's workspace functions, random sources, exchanges of identifiers that keep the empty string and the names of the pipeline's volumes, lists of transforms", "why_tests_cant": "Tests fix the random source or overwrite identifiers before comparing; they cannot show that no identifier leaks into a script, a variable, a path or a label for some pipeline, nor that every transform keeps this.", "anchors": ["yaml/compiler/compiler.go:71-262", "yaml/compiler/step.go:26-204", "yaml/compiler/clone.go:69-87", "yaml/compiler/workspace.go:97-130", "yaml/compiler/transform/volume.go:26-50", "yaml/compiler/transform/secret.go:24-76", "main.go:255-282"]}
{"id": "C137", "title": "Step names are only names", "statement": "Give the steps and services of a pipeline other names, and rename the dependencies with them. If different names stay different, the empty name stays empty and \"clone\" stays \"clone\", the linter answers the same, the error and its text included. What is compiled is what was compiled before with the names exchanged in the metadata, the label io.drone.step.name, the dependencies and the names of the script files; scripts, variables, images, volumes, policies and identifiers do not change, and it panics in the same cases. The callbacks of the compile command do not look at names, and the command prints the same specification with the names exchanged unless a label of the command line replaces the one with the name.", "quantifier": "all pipelines, renamings, trust flags, compilers with the library's workspace functions and callbacks that do not look at names, flags of the compile command", "why_tests_cant": "A test compiles some pipeline under some names; that no name is treated specially anywhere but \"clone\" is a statement about all of them.", "anchors": ["yaml/linter/linter.go:68-111", "yaml/linter/linter.go:223-234", "yaml/compiler/compiler.go:71-253", "yaml/compiler/step.go:26-204", "yaml/compiler/script_posix.go:27-58", "main.go:255-282"]}
{"id": "C138", "title": "Names of volumes and of pipelines are only names", "statement": "Give the volumes of a pipeline other names, where they are declared and where they are mounted. If the reserved names and no others become reserved names, the linter answers the same except for the name in an error text; and what is compiled is what was compiled before with the names exchanged where volumes are declared and mounted, nothing else changes, and it panics in the same cases. Give the pipelines of a manifest other names, in depends_on too, such that different names stay different: the linter for manifests gives the same answer.", "quantifier": "all pipelines and manifests, renamings, trust flags, compilers with the library's workspace functions and callbacks that do not look at volumes", "why_tests_cant": "A test uses some names; that no name but the reserved ones is treated specially is a statement about all of them.", "anchors": ["yaml/linter/linter.go:68-221", "yaml/linter/config.go:41-81", "yaml/compiler/compiler.go:71-253", "yaml/compiler/step.go:73-86", "yaml/compiler/workspace.go:97-158"]}
