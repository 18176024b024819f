{"id": "C01", "title": "Nodes are only built after everything they depend on is up to date", "statement": "Whenever a build hands a node to the job queue, every pre-build, static and dynamic dependency of that node has already reached the UP_TO_DATE state, and stays there for the rest of the build.", "quantifier": "every dependency graph (cyclic or not), every build target, every order in which jobs complete or fail, every number of graph sweeps", "why_tests_cant": "The order of job completion is chosen by the thread scheduler; a test sees one interleaving of one graph.", "anchors": ["Code/Tools/FBuild/FBuildCore/Graph/NodeGraph.cpp: DoBuildPass, BuildRecurse, CheckDependencies", "Code/Tools/FBuild/FBuildCore/WorkerPool/JobQueue.cpp: AddJobToBatch, FinalizeCompletedJobs"]}
{"id": "C02", "title": "Each node is built at most once per build", "statement": "During one build invocation, a node is handed to the job queue at most once, however many dependents it has and however many sweeps are made.", "quantifier": "every graph, target, completion order and number of sweeps", "why_tests_cant": "Double scheduling would only show on particular diamond shapes combined with particular completion timings.", "anchors": ["Code/Tools/FBuild/FBuildCore/Graph/NodeGraph.cpp: BuildRecurse, CheckDependencies", "Code/Tools/FBuild/FBuildCore/WorkerPool/JobQueue.cpp: AddJobToBatch"]}
{"id": "C03", "title": "Node states only move forward and final states are final", "statement": "A node state never decreases (NOT_PROCESSED < STATIC_DEPS < DYNAMIC_DEPS < BUILDING < final) and a node that is UP_TO_DATE or FAILED keeps that state for the rest of the build.", "quantifier": "every graph, every interleaving of sweeps and job completions", "why_tests_cant": "Requires looking at all transitions of all interleavings.", "anchors": ["Code/Tools/FBuild/FBuildCore/Graph/NodeGraph.cpp: BuildRecurse, CheckDependencies, DoBuildPass", "Code/Tools/FBuild/FBuildCore/Graph/Node.h: State"]}
{"id": "C04", "title": "A reported failure has a genuine root cause", "statement": "If a node is FAILED then there is a chain of dependencies from it to a node whose own job failed, whose finalisation failed, or whose dynamic dependency generation failed. A build never reports failure without an actual failing node.", "quantifier": "every graph, target, option setting (stop on first error or keep going) and interleaving", "why_tests_cant": "Absence of spurious failures is a statement about all runs.", "anchors": ["Code/Tools/FBuild/FBuildCore/Graph/NodeGraph.cpp: CheckDependencies, DoBuildPass", "Code/Tools/FBuild/FBuildCore/FBuild.cpp: Build"]}
{"id": "C05", "title": "A successful build means everything reachable was brought up to date", "statement": "If the build of a set of targets reports success then every node reachable from the targets through pre-build, static or dynamic dependencies is UP_TO_DATE.", "quantifier": "every graph, target set, and interleaving", "why_tests_cant": "Needs a closure argument over all reachable nodes of arbitrary graphs.", "anchors": ["Code/Tools/FBuild/FBuildCore/Graph/NodeGraph.cpp: DoBuildPass, BuildRecurse", "Code/Tools/FBuild/FBuildCore/FBuild.cpp: Build"]}
{"id": "C06", "title": "The build cannot get stuck silently", "statement": "A graph sweep that runs while no job is queued, running or waiting to be finalised either finishes the root, or strictly advances the state of some node, or leaves a cycle of unfinished nodes that the cyclic dependency check reports. On a graph of N nodes at most 5*N sweeps can start idle without finishing the root or reporting a cycle, so a build never spins or hangs silently.", "quantifier": "every graph, every reachable build state, every interleaving of sweeps and completions", "why_tests_cant": "Absence of deadlock cannot be observed by finitely many runs.", "anchors": ["Code/Tools/FBuild/FBuildCore/Graph/NodeGraph.cpp: DoBuildPass, BuildRecurse, CheckForCyclicDependencies, CheckForCyclicDependenciesRecurse"]}
{"id": "C07", "title": "Cycle reports are exact", "statement": "The runtime cyclic dependency check never reports a cycle when the unfinished part of the graph reachable from the root is acyclic, and always reports one when it is cyclic and nothing is in flight; the reported chain is a real dependency path.", "quantifier": "every graph and every assignment of node states", "why_tests_cant": "DFS pruning with visited tags can be wrong only on specific shapes; all shapes must be covered.", "anchors": ["Code/Tools/FBuild/FBuildCore/Graph/NodeGraph.cpp: CheckForCyclicDependencies, CheckForCyclicDependenciesRecurse"]}
{"id": "C08", "title": "A graph sweep always terminates", "statement": "DoBuildPass visits each node a bounded number of times and returns on every graph, including cyclic ones.", "quantifier": "every finite graph, every state", "why_tests_cant": "Termination on all (also cyclic) graphs is universally quantified.", "anchors": ["Code/Tools/FBuild/FBuildCore/Graph/NodeGraph.cpp: DoBuildPass, BuildRecurse, CheckDependencies"]}
{"id": "C09", "title": "Incremental build gives the same result as a clean build", "statement": "After any history of source edits, output tampering (with a changed timestamp), builds, failed builds and cancelled builds, whenever a build reports success the content of every node reachable from the targets is what a build from scratch of the current sources would produce.", "quantifier": "every history of edits, builds, failures and cancellations; every graph; every deterministic tool behaviour; assuming timestamps identify file contents", "why_tests_cant": "The interesting failures are stale outputs after particular long histories.", "anchors": ["Code/Tools/FBuild/FBuildCore/Graph/Node.cpp: DetermineNeedToBuildStatic, DetermineNeedToBuildDynamic, DetermineNeedToBuild, Finalize", "Code/Tools/FBuild/FBuildCore/Graph/NodeGraph.cpp: BuildRecurse"]}
{"id": "C10", "title": "A no-change build does nothing", "statement": "After a build, if no file changed, the dependencies exist and the nodes flagged as always needing to be built reproduce their previous result, a following build of any targets builds no node that the first build left up to date, except the flagged ones, and leaves their records unchanged.", "quantifier": "every graph and history ending in a successful build", "why_tests_cant": "Requires the recorded stamps to match for all nodes in all graphs.", "anchors": ["Code/Tools/FBuild/FBuildCore/Graph/Node.cpp: DetermineNeedToBuildStatic, DetermineNeedToBuild, Finalize", "Code/Tools/FBuild/FBuildCore/Graph/NodeGraph.cpp: BuildRecurse"]}
{"id": "C11", "title": "A change to a dependency forces a rebuild; weak dependencies never do", "statement": "A node is rebuilt if any non-weak static or dynamic dependency has a stamp differing from the one recorded by its last successful build or has no stamp; a change of a weak dependency alone never causes a rebuild.", "quantifier": "every node, dependency list and stamp values", "why_tests_cant": "Stamp comparison must be right for every combination of dependencies.", "anchors": ["Code/Tools/FBuild/FBuildCore/Graph/Node.cpp: DetermineNeedToBuild, DetermineNeedToBuildStatic", "Code/Tools/FBuild/FBuildCore/Graph/Dependencies.h: Dependency"]}
{"id": "C12", "title": "Interrupting a build never causes work to be wrongly skipped later", "statement": "If a build is cancelled at any point (or a node fails), every node that had been found to need building but was not successfully built is found to need building again by the next build.", "quantifier": "every crash/cancel point, every graph and interleaving", "why_tests_cant": "The cancel point is arbitrary; tests exercise only a few.", "anchors": ["Code/Tools/FBuild/FBuildCore/Graph/NodeGraph.cpp: BuildRecurse", "Code/Tools/FBuild/FBuildCore/FBuild.cpp: Build", "Code/Tools/FBuild/FBuildCore/Graph/Node.cpp: Finalize"]}
{"id": "C13", "title": "Concurrency group limits are respected", "statement": "At no time are more jobs of a concurrency group released to the workers than the limit of the group (unless the limit is at least the number of worker threads), no queued job is lost or duplicated by flushing, and when nothing of the group is active a waiting job is always released.", "quantifier": "every sequence of enqueue, flush and completion operations; all limits and thread counts", "why_tests_cant": "Counter underflow or lost jobs depend on long operation sequences.", "anchors": ["Code/Tools/FBuild/FBuildCore/WorkerPool/JobQueue.cpp: AddJobToBatch, FlushJobBatch, FinalizeCompletedJobs"]}
{"id": "C14", "title": "Local job queue hands out every job exactly once, most expensive first", "statement": "Queueing keeps the queue sorted by cost and loses or duplicates no job; removal returns a job of maximal cost among those queued.", "quantifier": "every sequence of queue and remove operations and every cost assignment", "why_tests_cant": "Merging of sorted batches must be right for every size and cost pattern.", "anchors": ["Code/Tools/FBuild/FBuildCore/WorkerPool/JobQueue.cpp: JobSubQueue::QueueJobs, JobSubQueue::RemoveJob, JobCostSorter", "Code/Core/Containers/Array.h, Core/Containers/Sort.h"]}
{"id": "C15", "title": "A distributed job is finalised exactly once and never used after being freed", "statement": "Whatever the interleaving of local consumption, racing, remote completion, cancellation, system errors, disconnections and finalisation, the result of a distributable job is applied to its node at most once, the job is freed at most once and never accessed afterwards.", "quantifier": "every interleaving of worker threads, network threads and the main thread", "why_tests_cant": "Races between local and remote completion are schedule dependent.", "anchors": ["Code/Tools/FBuild/FBuildCore/WorkerPool/JobQueue.cpp: GetDistributableJobToProcess, GetDistributableJobToRace, OnReturnRemoteJob, ReturnUnfinishedDistributableJob, FinishedProcessingJob, FinalizeCompletedJobs"]}
{"id": "C16", "title": "No distributed job is lost or left in an impossible state", "statement": "In every interleaving each distributable job is available, being worked on, waiting to be finalised, or finished; no internal state assertion fails and finished jobs are eventually freed.", "quantifier": "every interleaving of worker threads, network threads and the main thread", "why_tests_cant": "The failing schedules need a disconnect between a local win and its finalisation.", "anchors": ["Code/Tools/FBuild/FBuildCore/WorkerPool/JobQueue.cpp: FinalizeCompletedJobs, ReturnUnfinishedDistributableJob, OnReturnRemoteJob"]}
{"id": "C17", "title": "Path cleaning yields canonical paths", "statement": "CleanPath produces a full path with only native slashes, no empty, \".\" or \"..\" components (for rooted inputs), cleaning a clean path changes nothing, and two spellings of the same path (extra slashes, \"./\", \"dir/..\") clean to the same string that denotes the same file.", "quantifier": "every path string and working directory", "why_tests_cant": "Infinite input domain with many interacting edge cases.", "anchors": ["Code/Tools/FBuild/FBuildCore/Graph/NodeGraph.cpp: CleanPath"]}
{"id": "C18", "title": "Node lookup finds exactly the node that was added", "statement": "Finding a node by name returns the node most recently added under a name equal up to ASCII case, and nothing if there is none, regardless of hash collisions.", "quantifier": "every sequence of additions and lookups, every hash function and table size", "why_tests_cant": "Hash collisions cannot be enumerated by tests.", "anchors": ["Code/Tools/FBuild/FBuildCore/Graph/NodeGraph.cpp: AddNode, FindNodeInternal", "Code/Tools/FBuild/FBuildCore/Graph/Node.cpp: CalcNameHash"]}
{"id": "C19", "title": "Dependency lists survive save and load", "statement": "Saving any list of dependencies and loading it back gives the same nodes, stamps and weak flags in the same order; loading rejects truncated data.", "quantifier": "every dependency list", "why_tests_cant": "Round trip must hold for every list and stamp.", "anchors": ["Code/Tools/FBuild/FBuildCore/Graph/Dependencies.cpp: Save, Load"]}
{"id": "C20", "title": "The dependency database survives save and load", "statement": "Loading a saved dependency database restores every node, in order, with its type and name, and for every node which is not a plain input file its stamp, last build time, properties and all dependency lists; recorded configuration files, environment and existence checks are restored too. (Plain input files are examined anew in every build and carry no further data.)", "quantifier": "every node graph", "why_tests_cant": "Round trip over arbitrary graphs and property values.", "anchors": ["Code/Tools/FBuild/FBuildCore/Graph/NodeGraph.cpp: Save, Load", "Code/Tools/FBuild/FBuildCore/Graph/Node.cpp: Save, Load, SaveExtended, LoadExtended, Serialize, Deserialize"]}
{"id": "C21", "title": "A torn or corrupted database is never used", "statement": "If the process dies at any point while overwriting the database, or the stored bytes are altered, the next run either detects the damage and falls back to a full parse, or loads exactly the complete new or complete old database; it never uses a mixture (assuming the content hash has no collision on the data at hand).", "quantifier": "every crash point during the save, every old and new database", "why_tests_cant": "Crash points cannot be enumerated by unit tests.", "anchors": ["Code/Tools/FBuild/FBuildCore/FBuild.cpp: SaveDependencyGraph", "Code/Tools/FBuild/FBuildCore/Graph/NodeGraph.cpp: Save, Load, Initialize, ReadHeaderAndUsedFiles"]}
{"id": "C22", "title": "Compression round trips and never reads out of bounds", "statement": "Decompressing compressed data returns the original bytes for every compression level and algorithm, including incompressible data; and any buffer accepted as valid compressed data is decompressed without reading outside it.", "quantifier": "every byte string, every compression level, every claimed-valid buffer", "why_tests_cant": "All byte strings, including adversarial headers from the network.", "anchors": ["Code/Tools/FBuild/FBuildCore/Helpers/Compressor.cpp: Compress, CompressZstd, Decompress, IsValidData"]}
{"id": "C23", "title": "Multi-file buffers round trip", "statement": "Packing files into one buffer and extracting the i-th file returns exactly the bytes of the i-th input file; extracting with an out of range index fails.", "quantifier": "every list of files of any content and every index", "why_tests_cant": "Offsets must be right for every combination of sizes.", "anchors": ["Code/Tools/FBuild/FBuildCore/Helpers/MultiBuffer.cpp: CreateFromFiles, ExtractFile"]}
{"id": "C24", "title": "In-memory streams behave like one byte sequence", "statement": "The chained memory stream with any page size stores exactly the concatenation of everything written, reports its size exactly and keeps it retrievable page by page; data written by the typed write functions is read back unchanged by the corresponding read functions.", "quantifier": "every sequence of writes of any size and every page size", "why_tests_cant": "Page boundary splits occur at arbitrary offsets.", "anchors": ["Code/Core/FileIO/ChainedMemoryStream.cpp", "Code/Core/FileIO/MemoryStream.cpp", "Code/Core/FileIO/ConstMemoryStream.cpp", "Code/Core/FileIO/IOStream.cpp"]}
{"id": "C25", "title": "Wildcard matching is exactly the textbook relation", "statement": "A pattern with * and ? matches a string exactly when the string can be split so that each * stands for some substring and each ? for one character other than a dot.", "quantifier": "every pattern and string", "why_tests_cant": "Backtracking matchers fail on specific pattern/string combinations.", "anchors": ["Code/Core/Strings/AString.cpp: Match, MatchI", "Code/Core/FileIO/PathUtils.cpp: IsWildcardMatch"]}
{"id": "C26", "title": "Edit distance used for suggestions is the Levenshtein distance", "statement": "The distance computed between two names (shorter than the fixed capacity) is the minimum number of single character insertions, deletions and substitutions turning one into the other.", "quantifier": "every pair of strings", "why_tests_cant": "Optimality over all edit scripts is not testable.", "anchors": ["Code/Core/Strings/LevenshteinDistance.cpp: LevenshteinDistanceImpl"]}
{"id": "C27", "title": "\"Did you mean\" suggestions are the nearest targets", "statement": "The suggestion list contains only nodes within the maximum distance, is ordered by distance and no omitted candidate is nearer than a listed one when the list is full.", "quantifier": "every node set and query", "why_tests_cant": "Top-k insertion must be right for every arrival order.", "anchors": ["Code/Tools/FBuild/FBuildCore/Graph/NodeGraph.cpp: FindNearestNodesInternal"]}
{"id": "C28", "title": "CRC32 fast path equals the definition", "statement": "The slicing-by-8 CRC32 equals the bit-by-bit CRC-32 (polynomial 0xEDB88320) of the same bytes for any buffer alignment, and the incremental form does not depend on how the data is split.", "quantifier": "every byte string, alignment and split", "why_tests_cant": "All buffers and alignments.", "anchors": ["Code/Core/Math/CRC32.cpp: CRC_SlicingBy8, Update, Calc"]}
{"id": "C29", "title": "Command line tokenising is lossless and quote aware", "statement": "Tokenize splits exactly at unquoted separators: tokens are non-empty, contain no unquoted separator, appear in order, and everything outside the tokens is separators.", "quantifier": "every string and separator", "why_tests_cant": "Every quoting pattern must be handled.", "anchors": ["Code/Core/Strings/AString.cpp: Tokenize, RemoveQuotes"]}
{"id": "C30", "title": "String replace is exact and terminates", "statement": "Replacing a non-empty substring yields the left-to-right non-overlapping substitution, with the returned count being the number of substitutions, for every limit.", "quantifier": "every string, pattern, replacement and limit", "why_tests_cant": "Overlapping matches and boundary positions for all strings.", "anchors": ["Code/Core/Strings/AString.cpp: Replace"]}
{"id": "C31", "title": "Relative paths lead back to the file", "statement": "Resolving the relative path produced for a file against the base path gives the original file.", "quantifier": "every pair of clean full paths", "why_tests_cant": "Common prefix handling over all path pairs.", "anchors": ["Code/Core/FileIO/PathUtils.cpp: GetRelativePath"]}
{"id": "C32", "title": "Folder paths are normalised to a single trailing slash", "statement": "FixupFolderPath leaves only native slashes, no doubled slash and exactly one trailing slash, terminates, and is idempotent.", "quantifier": "every string", "why_tests_cant": "Repeated replacement of overlapping slashes over all strings.", "anchors": ["Code/Core/FileIO/PathUtils.cpp: FixupFolderPath, FixupFilePath, EnsureTrailingSlash"]}
{"id": "C33", "title": "Pool allocator never hands out overlapping memory", "statement": "Blocks handed out and not yet freed are disjoint, aligned and lie inside pages owned by the pool, for every sequence of allocations and frees.", "quantifier": "every sequence of alloc/free, every block size and alignment", "why_tests_cant": "Needs an invariant over all histories.", "anchors": ["Code/Core/Mem/MemPoolBlock.cpp: Alloc, Free, AllocPage"]}
{"id": "C34", "title": "Hash map behaves like a finite map", "statement": "A lookup returns the value most recently inserted for the key, and nothing for keys never inserted, irrespective of collisions; the size is the number of insertions.", "quantifier": "every sequence of inserts and lookups and every hash function", "why_tests_cant": "Collisions cannot be enumerated.", "anchors": ["Code/Core/Containers/UnorderedMap.h: Find, Insert"]}
{"id": "C35", "title": "Sorting returns a sorted permutation", "statement": "Array sort returns a permutation of its input that is ordered by the comparer, for every input length.", "quantifier": "every array and every strict weak order", "why_tests_cant": "All inputs; gap sequence logic.", "anchors": ["Code/Core/Containers/Sort.h: ShellSort", "Code/Core/Containers/Array.h: Sort"]}
{"id": "C36", "title": "Growable array refines a list", "statement": "Append (of an object outside the array), pop, pop-front, erase by index, find-and-erase, resize, capacity changes, clear, copy, move and swap have exactly the list semantics, never access memory outside the allocated block or an element that does not exist, lose or destroy no element twice, and keep size <= capacity.", "quantifier": "every sequence of operations", "why_tests_cant": "Growth happens at arbitrary points of a history.", "anchors": ["Code/Core/Containers/Array.h: Append, Pop, PopFront, Erase, EraseIndex, FindAndErase, SetCapacity, SetSize, Clear, Swap, operator =, Grow"]}
{"id": "C37", "title": "Work offered by a remote worker never exceeds its capacity", "statement": "A worker never has more jobs requested plus active over all clients than its number of CPUs plus one prefetched job, and requests are granted only to clients that advertised work.", "quantifier": "every sequence of client messages, disconnections and completions", "why_tests_cant": "Accounting across clients and histories.", "anchors": ["Code/Tools/FBuild/FBuildCore/Protocol/Server.cpp: FindNeedyClients, Process, FinalizeCompletedJobs"]}
{"id": "C38", "title": "A remote job starts only when its toolchain is completely synchronised", "statement": "A job received by a worker is queued for execution only when the manifest of its tool is complete with every file present, and every waiting job is started as soon as its toolchain becomes complete; no waiting job is forgotten when the client providing the toolchain disconnects.", "quantifier": "every interleaving of jobs, manifests, file transfers and disconnections from many clients", "why_tests_cant": "Depends on disconnect timing relative to manifest and file messages.", "anchors": ["Code/Tools/FBuild/FBuildCore/Protocol/Server.cpp: Process(MsgJob), Process(MsgManifest), Process(MsgFile), CheckWaitingJobs, OnDisconnected, RequestMissingFiles", "Code/Tools/FBuild/FBuildCore/Helpers/ToolManifest.cpp"]}
{"id": "C39", "title": "Tool manifests survive transfer", "statement": "A manifest received by a worker equals the manifest sent: tool id, file names, time stamps, hashes, sizes and environment; and the flattened environment block is exactly as long as allocated.", "quantifier": "every manifest and every list of environment variables", "why_tests_cant": "Length arithmetic and round trip for all lists.", "anchors": ["Code/Tools/FBuild/FBuildCore/Helpers/ToolManifest.cpp: SerializeForRemote, DeserializeFromRemote, GetRemoteFilePath"]}
{"id": "C40", "title": "Distinct toolchain files get distinct remote paths", "statement": "Two different files of a toolchain are never stored under the same path on a remote worker.", "quantifier": "every toolchain file list and root directory", "why_tests_cant": "Requires injectivity over all file name lists.", "anchors": ["Code/Tools/FBuild/FBuildCore/Helpers/ToolManifest.cpp: GetRelativePath, GetRemoteFilePath"]}
{"id": "C41", "title": "Message framing delivers exactly the messages sent", "statement": "Whatever way the byte stream is split by the network, the receiver sees exactly the messages sent, in order, with payloads attached to the right message.", "quantifier": "every message sequence and every fragmentation", "why_tests_cant": "TCP segmentation is arbitrary.", "anchors": ["Code/Core/Network/TCPConnectionPool.cpp: HandleRead, Send", "Code/Tools/FBuild/FBuildCore/Protocol/Protocol.cpp: IMessage::Send", "Code/Tools/FBuild/FBuildCore/Protocol/Server.cpp: OnReceive"]}
{"id": "C42", "title": "Remote system errors are retried a bounded number of times", "statement": "A job that keeps failing with system errors on remote workers is returned for another attempt at most the configured number of times and then reported as failed.", "quantifier": "every sequence of worker answers", "why_tests_cant": "Retry counters over all histories.", "anchors": ["Code/Tools/FBuild/FBuildCore/Protocol/Client.cpp: ProcessJobResultCommon", "Code/Tools/FBuild/FBuildCore/WorkerPool/Job.h: OnSystemError"]}
{"id": "C43", "title": "Small block allocator serves disjoint memory and recognises its own", "statement": "For every history of allocations of any sizes, releases and writes by user code to the memory it owns: memory handed out never overlaps, is aligned and inside the reserved range; allocating or releasing never alters memory in use; an allocation is refused only for sizes above 256 bytes, alignments above 16 or when the range is exhausted; releasing a pointer succeeds exactly for the allocator's own pointers and other user-space pointers are declined untouched, also before the first allocation.", "quantifier": "every history, every size and alignment, every reserved address range", "why_tests_cant": "Free lists live in the freed memory; errors only show after long histories.", "anchors": ["Code/Core/Mem/SmallBlockAllocator.cpp: Alloc, Free, InitBuckets, MemBucket::AllocateMemoryForPage", "Code/Core/Mem/MemPoolBlock.cpp"]}
{"id": "C44", "title": "The configuration is parsed again exactly when its inputs changed", "statement": "A saved database is used without parsing the configuration exactly if every configuration file has its recorded time or content, every imported environment variable and LIB have their recorded values, and every file existence check would give the recorded answer; otherwise the configuration is parsed again. A database found at a different path than where it was saved is never used.", "quantifier": "every saved database, every state of files and environment", "why_tests_cant": "All combinations of changed inputs.", "anchors": ["Code/Tools/FBuild/FBuildCore/Graph/NodeGraph.cpp: Initialize, Load, ReadHeaderAndUsedFiles", "Code/Tools/FBuild/FBuildCore/BFF/BFFFileExists.cpp: CheckForChanges", "Code/Tools/FBuild/FBuildCore/FBuild.cpp: ImportEnvironmentVar"]}
{"id": "C45", "title": "A lost connection is noticed", "statement": "When the peer of a connection closes it or the connection breaks, the reading side notices and reports the disconnection.", "quantifier": "every byte stream, every fragmentation and every moment of the close", "why_tests_cant": "Depends on error state left behind by earlier reads on the same thread.", "anchors": ["Code/Core/Network/TCPConnectionPool.cpp: HandleRead, WouldBlock, ConnectionThreadFunction"]}
{"id": "C46", "title": "A tool manifest describes the toolchain on disk", "statement": "After a compiler is built its manifest lists the executable and extra files in order with the time, hash and size of their present contents; and toolchains with equal ids have equal file hashes and remote paths (up to hash collisions) and the same environment.", "quantifier": "every file list, environment, disk state and earlier manifest", "why_tests_cant": "Depends on histories of file changes and of regenerated graphs; injectivity over all toolchains.", "anchors": ["Code/Tools/FBuild/FBuildCore/Helpers/ToolManifest.cpp: ToolManifestFile::DoBuild, ToolManifest::DoBuild, Migrate"]}
{"id": "C47", "title": "A unity build compiles every file exactly once", "statement": "When a Unity is generated successfully, compiling the unity files it hands to the object list (as they are on disk afterwards) plus the files it hands over individually compiles every input file exactly once; with -nounity every file is compiled individually; files are only taken out of a unity file for a configured reason and within the configured limit.", "quantifier": "every list of input directories, object lists and files, every isolation option and isolate list, every number of unity files, every behaviour of float arithmetic, every previous disk contents", "why_tests_cant": "The spread of files over unity files depends on floating point rounding for each pair of counts, and on which of exponentially many subsets of files is isolated.", "anchors": ["Code/Tools/FBuild/FBuildCore/Graph/UnityNode.cpp: DoBuild, GetFiles, FilterForceIsolated", "Code/Core/FileIO/PathUtils.cpp: PathEndsWithFile"]}
{"id": "C48", "title": "Unity contents do not depend on enumeration order", "statement": "A directory listing is the same whatever order the file system returns files in, and the generated unity files, their names and the individually compiled files are the same whatever order the inputs are found in, provided no two names differ in case only.", "quantifier": "every set of files and every permutation of it", "why_tests_cant": "A test machine's file system returns one order; the comparison must be a consistent order for all triples of paths for the sort to be meaningful.", "anchors": ["Code/Tools/FBuild/FBuildCore/Graph/UnityNode.cpp: UnityFileAndOrigin::operator<, GetFiles", "Code/Tools/FBuild/FBuildCore/Graph/DirectoryListNode.cpp: DoBuild"]}
{"id": "C49", "title": "A change of what a unity compiles is noticed", "statement": "If two builds of a Unity with the same options have the same stamp (and the hash did not collide) then they hand over the same unity files and the same individual files; toggling -nounity or deleting a generated file always regenerates it.", "quantifier": "every pair of file system states, isolate lists and read-only flags", "why_tests_cant": "It is a statement about every pair of builds, including the changes that leave the generated text alone.", "anchors": ["Code/Tools/FBuild/FBuildCore/Graph/UnityNode.cpp: DoBuild, DetermineNeedToBuildStatic", "Code/Tools/FBuild/FBuildCore/Graph/Node.cpp: DetermineNeedToBuild"]}
{"id": "C50", "title": "Conditions of If mean what they say", "statement": "A condition whose brackets match is accepted exactly if it is one of the grammar (literals, variables, !, brackets, comparisons, in / not in, and chains of && || == != applied from left to right) with operands of the right types, and the branch is then taken exactly if its value is true.", "quantifier": "every condition of any length and nesting, and every assignment of values to variables", "why_tests_cant": "The grammar is recursive; a test fixes one condition and one set of variables.", "anchors": ["Code/Tools/FBuild/FBuildCore/BFF/BFFBooleanExpParser.cpp: BFFBooleanExpParser::Parse, ParseBooleanExp, ParseBinaryBooleanExp, ParseSubBooleanExp, ParseOperator", "Code/Tools/FBuild/FBuildCore/BFF/Tokenizer/BFFToken.h: IsRoundRightBracket"]}
{"id": "C51", "title": "Every build file is evaluated in finitely many steps", "statement": "Evaluating a build file ends with a result, an error or a failed assertion, never runs forever (functions that call themselves without end are an error), never modifies an array that a loop is going over, and never uses a variable or stack frame that no longer exists.", "quantifier": "every sequence of tokens, of any length and nesting, every initial set of variables and every outcome of the functions that make nodes", "why_tests_cant": "User functions can recurse and loops can nest; a test evaluates one file. That no pointer kept across a loop body dangles depends on everything a body can do.", "anchors": ["Code/Tools/FBuild/FBuildCore/BFF/BFFParser.cpp: BFFParser::Parse, ParseUserFunctionCall, ParseFunction", "Code/Tools/FBuild/FBuildCore/BFF/BFFStackFrame.cpp: BFFStackFrame::GetDepth", "Code/Tools/FBuild/FBuildCore/BFF/Functions/FunctionForEach.cpp: ParseFunction"]}
{"id": "C52", "title": "Scopes do not leak", "statement": "What is assigned inside { }, If, ForEach or a function such as ObjectList is gone after it: the scopes around it have the same variables, and unless the body assigns to a ^Name they have the same values.", "quantifier": "every body of any length and nesting, every state of the scopes around it", "why_tests_cant": "The body is an arbitrary program, including nested scopes, loops and calls.", "anchors": ["Code/Tools/FBuild/FBuildCore/BFF/BFFParser.cpp: ParseUnnamedScope, ParseFunction, ParseNamedVariableDeclaration", "Code/Tools/FBuild/FBuildCore/BFF/BFFStackFrame.cpp: SetVar*, GetParentDeclaration"]}
{"id": "C53", "title": "User functions are isolated from their callers", "statement": "A call leaves every variable of its caller as it is; the function sees its parameters and nothing else; and two calls with the same argument values from any two places at the same depth do exactly the same: the same is printed, made and declared, or both fail. (Arguments that mention the name of a parameter are excepted.)", "quantifier": "every function body, every pair of calling states and every list of arguments", "why_tests_cant": "Non-interference relates two executions of an arbitrary program; no finite set of programs shows that nothing of the caller can be reached.", "anchors": ["Code/Tools/FBuild/FBuildCore/BFF/BFFParser.cpp: ParseUserFunctionCall, ParseUserFunctionDeclaration", "Code/Tools/FBuild/FBuildCore/BFF/BFFStackFrame.cpp: DisconnectStackChain, GetVariableRecurse, GetVarAny"]}
{"id": "C54", "title": "ForEach visits every element once, in order", "statement": "The body of a ForEach is evaluated once for each position of its arrays, in order, with each loop variable set to the element the array had there when the loop began, whatever the body does; arrays of different lengths are an error, and a statement on an array that is being iterated over is one too.", "quantifier": "every number of loop variables and elements, every body", "why_tests_cant": "The body may assign to variables of the same name, nest loops over the same array or call functions.", "anchors": ["Code/Tools/FBuild/FBuildCore/BFF/Functions/FunctionForEach.cpp: ParseFunction", "Code/Tools/FBuild/FBuildCore/BFF/BFFVariable.h: Freeze, Unfreeze"]}
{"id": "C55", "title": "Substitution in strings, and imported variables arrive unchanged", "statement": "A string with $Name$ in it is replaced by exactly the text a reader expects: plain characters stand for themselves, ^ makes the next character plain, $Name$ stands for the value of the variable; it is an error exactly if a $ has no partner or names something that has no text. #import X sets .X to the value of the environment variable, byte for byte, whatever characters are in it.", "quantifier": "every string, every set of variables, every value of an environment variable", "why_tests_cant": "Escaping and substitution are inverse to each other for all strings; samples miss combinations of ^ and $.", "anchors": ["Code/Tools/FBuild/FBuildCore/BFF/BFFParser.cpp: PerformVariableSubstitutions", "Code/Tools/FBuild/FBuildCore/BFF/Tokenizer/BFFTokenizer.cpp: HandleDirective_Import", "Code/Core/Strings/AString.cpp: Replace"]}
{"id": "C56", "title": "Conditions of #if and #elif", "statement": "A condition is accepted exactly if it consists of at most 255 terms NAME, exists( NAME ) and file_exists( 'path' ), each with an optional !, joined by && and ||. Its value is the usual one, with && before ||. The fixed array of intermediate results is never written beyond its end.", "quantifier": "every line of tokens of any length, every set of defined macros, environment and file system", "why_tests_cant": "Lines have any number of terms, and the fixed array is only reached by long ones.", "anchors": ["Code/Tools/FBuild/FBuildCore/BFF/Tokenizer/BFFTokenizer.cpp: HandleDirective_IfExpression, HandleDirective_IfDefined, HandleDirective_IfExists, HandleDirective_IfFileExists"]}
{"id": "C57", "title": "Reading build files ends, and #once means once", "statement": "Reading a build file ends with tokens or an error, whatever is in it and in the files it includes, even if they include one another. A file that begins with #once is read at most once, however often and from wherever it is included.", "quantifier": "every file system, every text of any length, every include structure", "why_tests_cant": "Include graphs are arbitrary and may be cyclic.", "anchors": ["Code/Tools/FBuild/FBuildCore/BFF/Tokenizer/BFFTokenizer.cpp: TokenizeFromFile, Tokenize, HandleDirective, HandleDirective_Include, HandleDirective_Once", "Code/Tools/FBuild/FBuildCore/BFF/Tokenizer/BFFFile.cpp"]}
{"id": "C58", "title": "Tokens do not depend on layout", "statement": "A text without directives gives exactly the tokens written in it: any white space and comments may be put between tokens, and none are needed where two tokens cannot be read as one. No text can be read in two ways.", "quantifier": "every sequence of tokens and every way to write it", "why_tests_cant": "There are infinitely many layouts, and each pair of adjacent tokens is a case of its own.", "anchors": ["Code/Tools/FBuild/FBuildCore/BFF/Tokenizer/BFFTokenizer.cpp: Tokenize, HandleIdentifier, HandleVariable, GetQuotedString"]}
{"id": "C59", "title": "Recorded inputs of the configuration are complete", "statement": "The files, environment variables and file_exists results recorded while a build file is read are true, and they are all it depends on: if all of them are unchanged, reading the build file again gives the same tokens, so a saved graph may be used without reading it.", "quantifier": "every pair of worlds (file system and environment) that agree on what was recorded", "why_tests_cant": "Non-interference quantifies over all changes to files and variables that were not recorded.", "anchors": ["Code/Tools/FBuild/FBuildCore/BFF/Tokenizer/BFFTokenizer.cpp", "Code/Tools/FBuild/FBuildCore/BFF/Tokenizer/BFFFileExists.cpp: CheckFile", "Code/Tools/FBuild/FBuildCore/FBuild.cpp: ImportEnvironmentVar"]}
{"id": "C60", "title": "Exactly one block of an #if is read", "statement": "Of #if, #elif and #else blocks the first whose condition holds is read and all others are skipped, whatever is in them, including other complete #if blocks; reading goes on after the #endif that belongs to the #if.", "quantifier": "every nesting of blocks, every number of #elif branches, every text in them", "why_tests_cant": "Blocks nest to any depth and skipped text is arbitrary.", "anchors": ["Code/Tools/FBuild/FBuildCore/BFF/Tokenizer/BFFTokenizer.cpp: HandleDirective_If, ParseToEndIf, GetDirective"]}
{"id": "C61", "title": "Changed build files never keep a stale target", "statement": "When build files have changed, the previous database is carried over only where that is right: a target keeps its 'already built' state only if its class, its options, its dependencies (by exact name, class and state) are those of the previous build, and then it keeps exactly the recorded versions and discovered dependencies. A change of a target makes everything that statically depends on it rebuild. What the new build files say is never altered. After carrying over, an incremental build equals a build from scratch. The process always ends.", "quantifier": "every old database, every new set of build files, every class of node, any depth of dependencies", "why_tests_cant": "Old and new graphs are arbitrary and independent; tests compare a few edits.", "anchors": ["Code/Tools/FBuild/FBuildCore/Graph/NodeGraph.cpp: Migrate, MigrateNode, MigrateProperties, MigrateProperty, AreNodesTheSame, DoDependenciesMatch", "Code/Tools/FBuild/FBuildCore/Graph/Node.cpp: Migrate"]}
{"id": "C62", "title": "Equivalent build files cause no rebuild", "statement": "If the build files are touched but describe the same project, nothing is lost: every target, including the ones found during earlier builds (objects, copied files, headers), keeps its version, build time, recorded dependency versions and discovered dependencies, and the next build builds nothing that was up to date.", "quantifier": "every acyclic old database that the build files can describe, every build history", "why_tests_cant": "The order of visits, sharing of dependencies and depth of the graph are unbounded.", "anchors": ["Code/Tools/FBuild/FBuildCore/Graph/NodeGraph.cpp: Migrate, MigrateNode", "Code/Tools/FBuild/FBuildCore/Graph/Node.cpp: Migrate, DetermineNeedToBuildStatic, DetermineNeedToBuildDynamic"]}
{"id": "C63", "title": "Cache keys do not share files", "statement": "The file of a cache entry determines the source key, command line key, compiler key and precompiled header key: different keys are different files. The temporary file of an entry is never an entry nor another entry's temporary file. Every entry lies directly in one of the directories that the clean-up and the statistics look at.", "quantifier": "all four keys over their whole range, every cache directory", "why_tests_cant": "The keys range over 2^224 values; a collision of names would need two particular ones.", "anchors": ["Code/Tools/FBuild/FBuildCore/Cache/ICache.cpp: GetCacheId", "Code/Tools/FBuild/FBuildCore/Cache/Cache.cpp: GetFullPathForCacheEntry, GetCacheFiles, Publish"]}
{"id": "C64", "title": "The cache returns what was stored", "statement": "Whatever is retrieved under an identifier is, whole and unchanged, data that somebody stored under it; when storing reports success the entry holds exactly the data; an entry changes only by being deleted or stored again. This holds for any number of machines working on one cache directory, with failures of every file operation, crashes at any point and deletions by others.", "quantifier": "all numbers of processes, all interleavings, all data, all ways in which reads and writes are split", "why_tests_cant": "The schedules that matter are decided by timing between processes and machines.", "anchors": ["Code/Tools/FBuild/FBuildCore/Cache/Cache.cpp: Publish, Retrieve", "Code/Core/FileIO/FileStream.cpp: Open, ReadBuffer, WriteBuffer", "Code/Core/FileIO/FileIO.cpp: FileMove, FileDelete"]}
{"id": "C65", "title": "Trimming the cache", "statement": "Trimming a cache that is within the limit deletes nothing. Otherwise, afterwards the cache is within the limit unless everything deletable is gone; files are deleted oldest first, not more than needed, and the reported size is the size of what is left.", "quantifier": "all sets of files, sizes, ages, limits and failures to delete", "why_tests_cant": "Depends on arbitrary sizes, ages and failing deletions.", "anchors": ["Code/Tools/FBuild/FBuildCore/Cache/Cache.cpp: Trim"]}
{"id": "C66", "title": "Which objects are cached and distributed", "statement": "An object is cached or compiled on another machine exactly if the compiler allows it and the options contain nothing that makes the result depend on local state: for the Microsoft compiler and clang in its mode managed code, preprocessing only, separate debug databases (caching), Windows runtime, static analysis, precompiled headers and source mappings (distribution); for GCC and Clang Objective-C, coverage, precompiled headers and source mappings (distribution). The last option wins where options cancel each other. The cache is consulted exactly if allowed by options, and with a precompiled header only if the header is in the cache.", "quantifier": "all option strings, all compilers and settings", "why_tests_cant": "Option strings are unbounded and order matters.", "anchors": ["Code/Tools/FBuild/FBuildCore/Graph/ObjectNode.cpp: DetermineFlags, IsCompilerArg_MSVC, IsStartOfCompilerArg_MSVC, ShouldUseCache"]}
{"id": "C67", "title": "All files of an object can be stored", "statement": "An object and the files produced along with it (precompiled header object, analysis results, coverage notes, alternative object) can be packed for the cache and for the way back from a worker.", "quantifier": "all option strings, all compilers", "why_tests_cant": "The number of files depends on combinations of options.", "anchors": ["Code/Tools/FBuild/FBuildCore/Graph/ObjectNode.cpp: GetExtraCacheFilePaths, DetermineFlags", "Code/Tools/FBuild/FBuildCore/Helpers/MultiBuffer.cpp: CreateFromFiles"]}
{"id": "C68", "title": "A cache hit gives what compiling gives", "statement": "If all participants store what their compilers produced, and hashes do not collide among the inputs in use, then retrieving an object writes exactly the files that compiling it would have written, whatever compression each participant uses.", "quantifier": "all histories of the cache, all inputs, all compression levels", "why_tests_cant": "Combines unbounded histories of other machines with arbitrary data.", "anchors": ["Code/Tools/FBuild/FBuildCore/Graph/ObjectNode.cpp: GetCacheName, RetrieveFromCache, WriteToCache_FromDisk, WriteToCache_FromUncompressedData"]}
{"id": "C69", "title": "Headers from GCC's preprocessed output", "statement": "From the preprocessed output of GCC or Clang exactly the headers are recorded as dependencies which its line markers say were entered (flag 1, or any marker once #line directives are used), in order, except pseudo files in angle brackets and directories; parsing fails only if some marker has no closing quote. Names printed with doubled backslashes mean the same file.", "quantifier": "all texts, any number and length of lines, both line ends", "why_tests_cant": "Preprocessed text contains arbitrary source code and unboundedly many markers.", "anchors": ["Code/Tools/FBuild/FBuildCore/Helpers/CIncludeParser.cpp: ParseGCC_Preprocessed, ParseToNextLineStartingWithHash", "Code/Tools/FBuild/FBuildCore/Graph/ObjectNode.cpp: ProcessIncludesWithPreProcessor"]}
{"id": "C70", "title": "Headers from /showIncludes", "statement": "From the output of the Microsoft compiler exactly the headers are recorded as dependencies which it reports by a line 'Note: including file: path' in any language.", "quantifier": "all outputs", "why_tests_cant": "Lines are mixed with arbitrary warnings, prefixes are localised and paths arbitrary.", "anchors": ["Code/Tools/FBuild/FBuildCore/Helpers/CIncludeParser.cpp: ParseMSCL_Output", "Code/Tools/FBuild/FBuildCore/Graph/ObjectNode.cpp: ProcessIncludesMSCL"]}
{"id": "C71", "title": "Headers from Microsoft's preprocessed output", "statement": "From preprocessed output of the Microsoft compiler exactly the files are recorded as dependencies for which a line is '#line 1' with a quoted name, in order; parsing fails only if some such line has no quoted name.", "quantifier": "all texts", "why_tests_cant": "Preprocessed text contains arbitrary source code.", "anchors": ["Code/Tools/FBuild/FBuildCore/Helpers/CIncludeParser.cpp: ParseMSCL_Preprocessed"]}
{"id": "C72", "title": "No header is lost or listed twice", "statement": "However often and in whatever spelling a header appears, it is in the list of the object's dependencies once, as its cleaned full path in the first spelling, in order of first appearance; spellings differing in case are the same on Windows.", "quantifier": "all sequences of names, all working directories", "why_tests_cant": "Depends on hashes of arbitrary names and on the order of arbitrarily many names.", "anchors": ["Code/Tools/FBuild/FBuildCore/Helpers/CIncludeParser.cpp: AddInclude, SwapIncludes"]}
{"id": "C73", "title": "The light cache sees every include directive", "statement": "Every #include of a path or a macro, and every #define of a macro as a path, which a compiler may act on in a file is recorded when the light cache reads the file, or the light cache reports an error and is not used for the object.", "quantifier": "all file contents; all ways to take a place for code, string, header name or comment", "why_tests_cant": "tests try a handful of comment and string layouts; files and the positions of comments in them are unbounded", "anchors": ["Code/Tools/FBuild/FBuildCore/Cache/LightCache.cpp: Parse, ParseDirective, ParseDirective_Include, ParseDirective_Define, SkipCommentBlock, SkipToEndOfQuotedString"]}
{"id": "C74", "title": "The light cache visits every file a compiler may open", "statement": "If the light cache reports no error, every file which a compiler may open through includes, under any outcome of the conditions, is among the files recorded (the dependencies of the object). Each of them exists, is recorded once, and the search ends.", "quantifier": "all finite file systems, include paths, forced includes, nesting depths and cycles of includes", "why_tests_cant": "the set of include graphs is unbounded; tests use a few small trees", "anchors": ["Code/Tools/FBuild/FBuildCore/Cache/LightCache.cpp: ProcessInclude, ProcessIncludeFromIncludeStack, ProcessIncludeFromIncludePath, ProcessIncludeFromFullPath, FileExists"]}
{"id": "C75", "title": "Equal keys of the light cache mean equal inputs", "statement": "If an object has the same light cache key in two states of the file system, without hash collisions, then the files recorded and their contents are the same and a compiler may open exactly the same files in both: a header added, removed or shadowed changes the key.", "quantifier": "all pairs of file systems, arguments, include paths and states of the shared cache", "why_tests_cant": "quantifies over pairs of whole file systems; a wrong cache hit shows only for the pair which collides", "anchors": ["Code/Tools/FBuild/FBuildCore/Cache/LightCache.cpp: Hash", "Code/Tools/FBuild/FBuildCore/Helpers/ProjectGeneratorBase.cpp: ExtractIncludePaths, ExtractIntellisenseOptions"]}
{"id": "C76", "title": "The light cache of an object does not depend on other objects", "statement": "Whether the light cache can be used for an object, its key and its dependencies do not depend on which objects were looked at before and left files in the shared cache.", "quantifier": "all contents of the shared cache left by any number of other objects", "why_tests_cant": "depends on the order of jobs in a build; each order is another execution", "anchors": ["Code/Tools/FBuild/FBuildCore/Cache/LightCache.cpp: FileExists, g_AllIncludedFiles, Hash"]}
{"id": "C77", "title": "The compiler is given the options of the user", "statement": "When a source file is compiled, the words the compiler receives are the words of the options of the user, in their order, with the placeholders for input, output, precompiled header and referenced assemblies filled in, followed by the options FASTBuild adds. Left out are only the documented options (/MP, /Gm, and the colour options if colours are forced). Other words arrive unchanged.", "quantifier": "all option lines, compilers, kinds of pass, file names and settings", "why_tests_cant": "option lines, quoting and combinations of adjacent options are unbounded", "anchors": ["Code/Tools/FBuild/FBuildCore/Graph/ObjectNode.cpp: BuildArgs", "Code/Tools/FBuild/FBuildCore/ExeDrivers/Compiler/CompilerDriverBase.cpp", "Code/Tools/FBuild/FBuildCore/ExeDrivers/Compiler/CompilerDriver_CL.cpp", "Code/Tools/FBuild/FBuildCore/ExeDrivers/Compiler/CompilerDriver_GCCClang.cpp", "Code/Tools/FBuild/FBuildCore/Helpers/Args.cpp"]}
{"id": "C78", "title": "No option is lost between preprocessing and compiling", "statement": "If a file is preprocessed first and the result compiled, every option reaches the compiler in at least one of the two passes, at its place, unless it is for a precompiled header which neither pass can use, or every pass leaves it out, or it is the value of an option that was removed. Options whose effect is in the preprocessed file (forced includes, precompiled headers, dependency output) are not given to the second pass.", "quantifier": "all option lines, compilers and positions of an option", "why_tests_cant": "the two passes use separate tables of removed options; whether they overlap has to be decided for every token", "anchors": ["Code/Tools/FBuild/FBuildCore/ExeDrivers/Compiler/CompilerDriver_CL.cpp: ProcessArg_PreprocessorOnly, ProcessArg_CompilePreprocessed", "Code/Tools/FBuild/FBuildCore/ExeDrivers/Compiler/CompilerDriver_GCCClang.cpp: ProcessArg_PreprocessorOnly, ProcessArg_CompilePreprocessed"]}
{"id": "C79", "title": "A worker compiles with the same options as the local machine", "statement": "The options sent to a worker, processed there, give the same words in the same order as compiling the preprocessed file locally, except for the names of the files, the file for debug information and the directory relative include paths are relative to.", "quantifier": "all option lines, compilers and settings of the two machines", "why_tests_cant": "the options are processed by two programs with different rules; every line is another case", "anchors": ["Code/Tools/FBuild/FBuildCore/Graph/ObjectNode.cpp: SaveRemote, LoadRemote, BuildArgs", "Code/Tools/FBuild/FBuildCore/ExeDrivers/Compiler/CompilerDriver_GCCClang.cpp: ProcessArg_PreparePreprocessedForRemote"]}
{"id": "C80", "title": "Long command lines go through response files unchanged", "statement": "Arguments are given directly exactly if this is allowed and the command line is shorter than the limit of the system; an error is reported exactly if it is not and response files may not be used; otherwise a response file contains the same arguments, with line breaks only where an argument ends, and escaped characters read back as written. No sequence of calls leads to a failed assertion.", "quantifier": "all sequences of calls building arguments, limits, modes and platforms", "why_tests_cant": "lengths around system limits of up to 128 KiB and the places of delimiters are unbounded", "anchors": ["Code/Tools/FBuild/FBuildCore/Helpers/Args.cpp: Finalize, AddDelimiter", "Code/Tools/FBuild/FBuildCore/Helpers/ResponseFile.cpp: CreateInternal", "Code/Tools/FBuild/FBuildCore/Graph/ObjectNode.cpp: GetResponseFileMode"]}
{"id": "C81", "title": "An object from the cache was compiled with the options asked for", "statement": "In every history of builds sharing a cache, an object retrieved was compiled with the same words on the command line, and the same mapping of source paths, as compiling it now would use.", "quantifier": "all histories of builds with any options", "why_tests_cant": "quantifies over pairs of builds with different settings, possibly by different users", "anchors": ["Code/Tools/FBuild/FBuildCore/Graph/ObjectNode.cpp: GetCacheName, GetCommandLineKey, ShouldUseCache, ShouldUseDeoptimization"]}
{"id": "C82", "title": "A directory list contains exactly the files asked for", "statement": "For every content of the file system, a directory list contains exactly the files in the directory, and in the directories below it when recursive, whose names match one of the patterns, which are not below an excluded path and are excluded neither by name nor by pattern; no file appears twice, and the result is sorted and does not depend on the order in which the file system returns entries.", "quantifier": "all trees of directories, patterns, exclusions and orders of enumeration", "why_tests_cant": "trees, patterns and enumeration orders are unbounded; tests see the order of one file system", "anchors": ["Code/Tools/FBuild/FBuildCore/Graph/DirectoryListNode.cpp: DoBuild, OnDirectory, OnFile", "Code/Core/FileIO/FileIO.cpp: GetFilesRecurse, IsMatch"]}
{"id": "C83", "title": "Every change of a directory list is noticed", "statement": "Two directory lists of a path with the same options that differ in a file, a directory or (when asked for) a read only flag have different stamps, unless the hash function collides on two different texts.", "quantifier": "all pairs of contents of the file system", "why_tests_cant": "quantifies over pairs of trees of any size", "anchors": ["Code/Tools/FBuild/FBuildCore/Graph/DirectoryListNode.cpp: DoBuild, MakePrettyName"]}
{"id": "C84", "title": "Copying a directory copies every file to its place", "statement": "When setting up the copies of a directory succeeds, whatever nodes there were before, every listed file is copied to its place below the destination, no copy stands for two files, and nothing known before has changed; and it does succeed when nothing known before is in the way and no two files are to be copied to the same place.", "quantifier": "all lists of files, destinations and graphs", "why_tests_cant": "graphs with any history of nodes", "anchors": ["Code/Tools/FBuild/FBuildCore/Graph/CopyDirNode.cpp: DoDynamicDependencies", "Code/Tools/FBuild/FBuildCore/Graph/NodeGraph.cpp: FindNode"]}
{"id": "C85", "title": "Every listed source file has its own object", "statement": "When setting up the objects of an object list succeeds, every listed source file has an object of this list that is compiled from it, named after its place below the path of the list, and no object stands for two sources or two object lists; with extensions kept, different files have different names of objects.", "quantifier": "all lists of files, names, output paths and graphs", "why_tests_cant": "clashes depend on pairs of names and on nodes other targets have created", "anchors": ["Code/Tools/FBuild/FBuildCore/Graph/ObjectListNode.cpp: GatherDynamicDependencies, CreateDynamicObjectNode, GetObjectFileName"]}
{"id": "C86", "title": "Removing directories removes what was asked for and nothing else", "statement": "Whatever the system refuses, RemoveDir deletes nothing but listed files and, when asked for, listed directories and the paths themselves; what is excluded stays. When it succeeds all of these are gone, and it does succeed for a whole directory when the system refuses nothing, leaving nothing below its path.", "quantifier": "all file systems, trees, options and refusals by the system", "why_tests_cant": "deletion order matters for trees of any depth, and failures can occur at any step", "anchors": ["Code/Tools/FBuild/FBuildCore/Graph/RemoveDirNode.cpp: DoBuild", "Code/Core/FileIO/FileIO.cpp: DirectoryDelete, FileDelete"]}
{"id": "C87", "title": "A linker is given everything its targets are made of", "statement": "Let a linked target name libraries, object lists, DLLs, copies, files and aliases of them. What is inside the files given to the linker for %1 (a library has inside it what its librarian was given, and so on down) is exactly: for object lists and libraries all their objects and the objects of the lists and libraries they are made of, including the object of a precompiled header where the compiler makes one; for DLLs their import library; for copies what their source stands for; other files as they are. This holds whether libraries are merged, linked, or replaced by their objects. %1[0] and %1[1] have the parts for Libraries and Libraries2; in %1 the first come first. The object of a shared precompiled header is there only once for a placeholder. A target is refused exactly if something in it cannot be linked.", "quantifier": "for all trees of nodes of any depth in which a name of a library means one thing, both ways of linking, all orders", "why_tests_cant": "Tests link a few hand-made graphs; nesting of libraries in libraries, lists in lists, and sharing between them is unbounded.", "anchors": ["Code/Tools/FBuild/FBuildCore/Graph/LinkerNode.cpp: LinkerNode::GetInputFiles, LinkerNode::DependOnNode, LinkerNode::Initialize", "Code/Tools/FBuild/FBuildCore/Graph/ObjectListNode.cpp: ObjectListNode::GetInputFiles", "Code/Tools/FBuild/FBuildCore/Graph/LibraryNode.cpp: LibraryNode::GetInputFiles", "Code/Tools/FBuild/FBuildCore/Graph/DLLNode.cpp: DLLNode::GetImportLibName"]}
{"id": "C88", "title": "Command lines of linkers, librarians, programs and C# compilers say what the options say", "statement": "The words a linker, a librarian, a program or a C# compiler is given are, token by token of the options and in their order: a token with a placeholder for inputs becomes one word for each input with the text of the token around it; one for the output becomes the token with the name; %3 stands for assembly resources (linker) or for the references with commas between them (C#); /LIBPATH: is written with a clean quoted path; every other token is kept as it is. If the words have balanced quotes, the program reads back these words.", "quantifier": "for all options, names, inputs and both kinds of linkers", "why_tests_cant": "Options are free text; combinations of placeholders, quotes and inputs are unbounded.", "anchors": ["Code/Tools/FBuild/FBuildCore/Graph/LinkerNode.cpp: LinkerNode::BuildArgs, LinkerNode::GetInputFiles, LinkerNode::GetAssemblyResourceFiles", "Code/Tools/FBuild/FBuildCore/Graph/LibraryNode.cpp: LibraryNode::BuildArgs", "Code/Tools/FBuild/FBuildCore/Graph/ExecNode.cpp: ExecNode::GetFullArgs, ExecNode::GetInputFiles", "Code/Tools/FBuild/FBuildCore/Graph/CSNode.cpp: CSNode::BuildArgs, CSNode::GetExtraRefs", "Code/Tools/FBuild/FBuildCore/Helpers/Args.cpp: Args::StripQuotes"]}
{"id": "C89", "title": "Libraries named only in the options of a linker are dependencies", "statement": "A file that the options of a linker name - as a file, as a default library that is not ignored, with -l (shared library first, or static after -Bstatic), or with -l: - and that is found, in the order of the paths of the options and then of the environment, is a dependency of the linker; nothing else becomes one; and it is an error exactly if a target that is not a file is found in this way. Reading the options is defined for all options.", "quantifier": "for all options, paths, file systems and graphs", "why_tests_cant": "Free text options times the state of the disk; a missing dependency shows only when the library changes later.", "anchors": ["Code/Tools/FBuild/FBuildCore/Graph/LinkerNode.cpp: LinkerNode::GetOtherLibraries, LinkerNode::GetOtherLibrary, LinkerNode::GetOtherLibsArg, LinkerNode::IsStartOfLinkerArg"]}
{"id": "C90", "title": "What a program's end means for the build", "statement": "A linked target is good exactly if old files could be deleted, there were arguments, the last run of the linker ended with 0 and so did the stamp program if there is one; the linker is run a second time only for Microsoft's linker and errors for which this helps, and never a third time. Libraries and C# assemblies are good exactly if the program ended with 0; an Exec exactly if it ended with the code expected, and then what it printed is in its output if this is asked for; a Test exactly if it ended with 0 and in time and all of its output is written to the file.", "quantifier": "for all results of the processes and of writing", "why_tests_cant": "Failures of linkers, disks and time limits cannot be produced at will.", "anchors": ["Code/Tools/FBuild/FBuildCore/Graph/LinkerNode.cpp: LinkerNode::DoBuild", "Code/Tools/FBuild/FBuildCore/Graph/LibraryNode.cpp: LibraryNode::DoBuild", "Code/Tools/FBuild/FBuildCore/Graph/CSNode.cpp: CSNode::DoBuild", "Code/Tools/FBuild/FBuildCore/Graph/ExecNode.cpp: ExecNode::DoBuild", "Code/Tools/FBuild/FBuildCore/Graph/TestNode.cpp: TestNode::DoBuild"]}
{"id": "C91", "title": "Old outputs of Microsoft's linker are deleted unless it links incrementally", "statement": "The linker is taken to link incrementally exactly if the options have /DEBUG or /INCREMENTAL and none of /INCREMENTAL:NO, /OPT with REF, ICF or LBR (not NOREF and so on) and /ORDER, with slash or dash and in any case. Before linking, the output, its .ilk and its .pdb are deleted exactly if the linker is Microsoft's and does not link incrementally, or a clean build is forced, or the target was never built; nothing else is deleted.", "quantifier": "for all options and names", "why_tests_cant": "Options are free text; tests try a handful.", "anchors": ["Code/Tools/FBuild/FBuildCore/Graph/LinkerNode.cpp: LinkerNode::DetermineFlags, LinkerNode::DoPreLinkCleanup, LinkerNode::IsLinkerArg_MSVC, LinkerNode::IsStartOfLinkerArg_MSVC"]}
{"id": "C92", "title": "Assigning, adding and taking away variables of a build file follow a fixed table of types", "statement": "`=` to a new variable creates it, and `+` or `-` to a new variable is refused. `=` gives a variable the value on the right exactly if the types agree, a single string or struct counting as an array of one where an array is expected and an empty array as either kind. `+` concatenates strings and arrays, adds integers, and puts structs together: the members of the left in their order, then those only the right has, members both have put together recursively. `-` removes all occurrences of a substring, all equal elements, or subtracts. All other combinations are refused, no member is lost or doubled, a variable keeps its type (empty arrays may take either kind), and writing a value or an array out has the same effect as using a variable that holds it.", "quantifier": "for all values, nested to any depth and of any size, and all sequences of elements of an array", "why_tests_cant": "There are six types on either side and three operators, literal and variable have separate code, and structs nest without limit.", "anchors": ["Code/Tools/FBuild/FBuildCore/BFF/BFFVariable.cpp: BFFVariable::ConcatVarsRecurse", "Code/Tools/FBuild/FBuildCore/BFF/BFFParser.cpp: BFFParser::StoreVariableString, BFFParser::StoreVariableArray, BFFParser::StoreVariableBool, BFFParser::StoreVariableInt, BFFParser::StoreVariableToVariable"]}
{"id": "C93", "title": "Properties of a target get exactly the values of the variables of their name, checked against what the property allows", "statement": "Every property that is not hidden is set from the variable in scope with its name (for structs: from the member with its name, or the scope if it is inherited), hidden ones never are, and properties are refused exactly if they are required and missing or empty, of the wrong type, out of their range, a folder where a file is expected, an empty string in an array, or a target that is no file where none is allowed. Paths are made absolute and end with a slash as the property says, and aliases where files are expected stand for their targets.", "quantifier": "for all classes of properties nested to any depth, all values of variables and all graphs", "why_tests_cant": "There are some thirty classes with hundreds of properties, and any value can be assigned to each.", "anchors": ["Code/Tools/FBuild/FBuildCore/BFF/Functions/Function.cpp: Function::PopulateProperties, Function::PopulateProperty, Function::PopulateStringHelper, Function::PopulatePathAndFileHelper, Function::PopulateArrayOfStrings, Function::PopulateString, Function::PopulateBool, Function::PopulateInt32, Function::PopulateUInt32, Function::PopulateArrayOfStructs, Function::PopulateArrayOfStructsElement, Function::PopulateCustom"]}
{"id": "C94", "title": "A list of targets is what its names stand for", "statement": "A list of names gives, in order, the node of each name, an alias being replaced by its targets without repetition; names not known become files in the graph and nothing else in the graph changes. The list is refused exactly if a name is empty or stands for something that is not allowed there (directory listings, settings and so on for targets; anything but files and object lists for inputs).", "quantifier": "for all graphs without two nodes of the same name and all lists of names", "why_tests_cant": "Names differ in case and spelling, aliases overlap, and the graph grows while the list is read.", "anchors": ["Code/Tools/FBuild/FBuildCore/BFF/Functions/Function.cpp: Function::GetNodeList, Function::GetNodeListInternal", "Code/Tools/FBuild/FBuildCore/Graph/NodeGraph.cpp: NodeGraph::FindNode, NodeGraph::FindNodeInternal"]}
{"id": "C95", "title": "A definition takes new names only, and names keep their meaning", "statement": "A target is accepted only if its output path or name, and its header, are not names of anything yet, also not of a file that was only referred to. After a definition both names mean the new node, all other names mean what they meant, nodes that were there are unchanged, no two nodes have the same name and no new node depends on itself. So it is for whole build files: each definition makes a node of its own that its names mean to the end. An alias stands for what its targets stood for when it was defined.", "quantifier": "for all sequences of definitions, all graphs and all names", "why_tests_cant": "Conflicts depend on the order of definitions and on names that differ in case, dots and slashes only.", "anchors": ["Code/Tools/FBuild/FBuildCore/BFF/Functions/Function.cpp: Function::ParseFunction, Function::Commit, Function::GetNameForNode, Function::ProcessAlias", "Code/Tools/FBuild/FBuildCore/Graph/NodeGraph.cpp: NodeGraph::CreateNode, NodeGraph::FindNode", "Code/Tools/FBuild/FBuildCore/Graph/AliasNode.cpp: AliasNode::Initialize"]}
{"id": "C96", "title": "A compilation database lists every compiled source once, with what the compiler is given", "statement": "The text written for a set of targets is valid JSON. It is an array with one entry for each source file of each object list the targets depend on (each list once, however often it is reached), among directories, explicit files and what unities are made of. Each entry has the working directory, the source, its object file and as arguments the compiler and its options without quotes, the first %1 or %2 of an option replaced by source or object file. These are the arguments the compiler gets in the build.", "quantifier": "for all acyclic or cyclic graphs, all sets of targets, all lists of files and options with bytes below 128 (all bytes where char is unsigned)", "why_tests_cant": "Escaping, commas and the replacement of placeholders interact for any names, and the walk depends on the shape of the graph.", "anchors": ["Code/Tools/FBuild/FBuildCore/Helpers/CompilationDatabase.cpp: CompilationDatabase::Generate, CompilationDatabase::VisitNodes, CompilationDatabase::HandleObjectListNode, CompilationDatabase::HandleInputFile", "Code/Tools/FBuild/FBuildCore/Helpers/JSON.cpp: JSON::AppendEscaped, JSON::Escape", "Code/Tools/FBuild/FBuildCore/Graph/ObjectListNode.cpp: ObjectListNode::EnumerateInputFiles, ObjectListNode::GetObjectFileName", "Code/Tools/FBuild/FBuildCore/Graph/UnityNode.cpp: UnityNode::EnumerateInputFiles"]}
{"id": "C97", "title": "Building for a source file builds everything that uses it, and only that", "statement": "With a source file given beside the targets, exactly the first users of the file on the ways down from the targets are built, each once: they use it, the targets need them, and all other users of it that the targets need are built with them. If nothing is known to use it, the targets themselves are built. With more source files all users of each are built.", "quantifier": "for all graphs, all targets and all lists of source files", "why_tests_cant": "The walk shares marks between branches, so what is found depends on the shape of the graph and the order of targets.", "anchors": ["Code/Tools/FBuild/FBuildCore/Helpers/SourceFileTargetResolver.cpp: SourceFileTargetResolver::Resolve, SourceFileTargetResolver::FindTargetsRecurse", "Code/Tools/FBuild/FBuildCore/FBuild.cpp: FBuild::Build"]}
{"id": "C98", "title": "Command line options are read alike in every process of a build", "statement": "A command line is accepted exactly if it can be split into known options (with their values in range) and targets and the cache mode variable, where it matters, is one of the known modes; each option then has the value given by the last argument about it, or its default, whatever the order of the other arguments, and targets and source files are those named, in order. A build happens iff no argument asks for something else. When the build is handed to wrapper processes, or to the Windows subsystem for Linux, they see the same options.", "quantifier": "for all lists of arguments of any length, all environments (platform, redirection, cache mode variable, number of processors) and all readers of numbers", "why_tests_cant": "The tests try a few single options; the interaction of any sequence of 40 options that overwrite one another, and the text that is built from them and parsed again by two more processes, cannot be enumerated.", "anchors": ["Code/Tools/FBuild/FBuildCore/FBuildOptions.cpp: FBuildOptions::ProcessCommandLine", "Code/Tools/FBuild/FBuildCore/FBuildOptions.h", "Code/Tools/FBuild/FBuild/Main.cpp: Main, WrapperMainProcess, WrapperIntermediateProcess, WrapperModeForWSL"]}
{"id": "C99", "title": "One build at a time in a directory, and its own result", "statement": "Whatever processes are started in a working directory, with and without the wrapper, in whatever order they run and whichever of them are killed, at most one build runs there at any time; and the process that was started returns the result of its own build, or that it crashed.", "quantifier": "for all numbers of processes, all interleavings of their steps and all kills", "why_tests_cant": "Needs several processes killed at particular moments; a test can try single schedules only.", "anchors": ["Code/Tools/FBuild/FBuild/Main.cpp: Main, WrapperMainProcess, WrapperIntermediateProcess", "Code/Core/Process/SystemMutex.cpp: SystemMutex::TryLock, SystemMutex::Unlock", "Code/Core/Process/SharedMemory.cpp: SharedMemory::Create, SharedMemory::Open", "Code/Tools/FBuild/FBuildCore/FBuild.cpp: FBuild::Build"]}
{"id": "C100", "title": "Jobs on a worker are not lost, freed twice or answered to another client", "statement": "On a worker, whatever clients connect, send jobs and disconnect while builds are running, every job is in one place at a time and is not used after it was freed; each job is answered once at most, and always to the client that sent it; and as long as its client is connected, a job is held somewhere, has been answered, or was aborted.", "quantifier": "for all numbers of clients, jobs and worker threads, and all interleavings of their threads", "why_tests_cant": "Depends on disconnects that fall between two locks of other threads and on memory being used again; tests run a few schedules.", "anchors": ["Code/Tools/FBuild/FBuildCore/WorkerPool/JobQueueRemote.cpp: JobQueueRemote::QueueJob, GetJobToProcess, FinishedProcessingJob, GetCompletedJob, CancelJobsWithUserData", "Code/Tools/FBuild/FBuildCore/WorkerPool/WorkerThreadRemote.cpp: WorkerThreadRemote::Main, GetStatus", "Code/Tools/FBuild/FBuildCore/Protocol/Server.cpp: Server::OnConnected, OnDisconnected, Process, CheckWaitingJobs, FinalizeCompletedJobs, GetHostForJob"]}
{"id": "C101", "title": "A generated solution lists every project once, with the configurations, folders and dependencies asked for", "statement": "The solution file can be read back, and what is read is what the build file asked for: one entry for each project that it names anywhere and one for each solution folder and its parents; each configuration of the solution once, mapping each project to the configuration and platform asked for, built and deployed exactly if it is listed; each project in the folders that list it and each folder in its parent; each folder with its files; and each project with the dependencies given for it.", "quantifier": "for all sets of projects, configurations, folders, items and dependencies, with names of any length without quotes, line breaks and =", "why_tests_cant": "The inputs are unbounded, and tests compare a few generated files, on one platform, and do not read the result back.", "anchors": ["Code/Tools/FBuild/FBuildCore/Graph/SLNNode.cpp: SLNNode::Initialize, GatherProjects", "Code/Tools/FBuild/FBuildCore/Helpers/SLNGenerator.cpp: SLNGenerator::GenerateSLN, WriteProjectListings, WriteSolutionFolderListings, WriteSolutionConfigurationPlatforms, WriteProjectConfigurationPlatforms, WriteNestedProjects", "Code/Tools/FBuild/FBuildCore/Helpers/VSProjectGenerator.cpp: VSProjectGenerator::FormatDeterministicProjectGUID"]}
{"id": "C102", "title": "Include paths, definitions and options told to an IDE are those of the compiler's command line", "statement": "For every command line of a compiler, whatever its quotes, the include paths, forced includes, definitions and language options handed to a generated project (and to the light cache) are exactly the values of those options on that line, in order: an option has its value in the same argument or in the next one, and other arguments give nothing.", "quantifier": "for all command lines of any length, all prefixes of the code, with and without escaping of quotes", "why_tests_cant": "Arguments are arbitrary text, and what an argument means depends on the one before it; tests try a few options.", "anchors": ["Code/Tools/FBuild/FBuildCore/Helpers/ProjectGeneratorBase.cpp: ExtractIncludePaths, ExtractDefines, ExtractAdditionalOptions, ExtractIntellisenseOptions"]}
{"id": "C103", "title": "A generated Visual Studio project lists every file once, with its filter, and each configuration's properties as given", "statement": "For every project, the file written for Visual Studio can be read as XML. It lists each input file exactly once, whatever the case of its name, with the type of the first pattern that matches. It lists the configurations in order. What it says for a configuration is what was given for it, whatever characters the values have, or what the options of its target say if nothing was given. The file of filters lists the same files, each in its folder below a base path, and every such folder with its parents exactly once under an identifier of its own.", "quantifier": "for all lists of files, base paths, file types, configurations with any values, references and imports, on Windows and elsewhere", "why_tests_cant": "Values are arbitrary text that must survive escaping; duplicates depend on the order after sorting; folders form trees of any depth. Tests compare a handful of generated files.", "anchors": ["Code/Tools/FBuild/FBuildCore/Helpers/VSProjectGenerator.cpp: GenerateVCXProj, GenerateVCXProjFilters, WritePGItem, GetFolderPath, CanonicalizeFilePaths, FormatDeterministicProjectGUID", "Code/Tools/FBuild/FBuildCore/Graph/VCXProjectNode.cpp: Initialize"]}
{"id": "C104", "title": "A worker is offered to clients while it is available, and only then", "statement": "A worker announces itself by a file in the first directory named by FASTBUILD_BROKERAGE_PATH. While it is available the file is there, of the name the worker goes by, with a recent time, saying the current settings and, five minutes later at most, the current names of the machine. While it is not available, or after it ended, there is no file of any name the machine ever had. A client finds exactly the workers that have a file in one of its directories and are not the machine itself, or exactly the workers of FASTBUILD_WORKERS if that lists any. Cleaning deletes the files that nobody has touched for a day and no others.", "quantifier": "for all values of the variables, all sequences of calls at any times, all changes of names, addresses and settings, and all that others do to other files in between", "why_tests_cant": "What is in the directory depends on the whole history of calls, times and names. Tests run one worker for a moment with one directory.", "anchors": ["Code/Tools/FBuild/FBuildCore/WorkerPool/WorkerBrokerage.cpp: InitBrokerage", "Code/Tools/FBuild/FBuildCore/WorkerPool/WorkerBrokerageClient.cpp: FindWorkers", "Code/Tools/FBuild/FBuildCore/WorkerPool/WorkerBrokerageServer.cpp: SetAvailability, UpdateBrokerageFilePath"]}
{"id": "C105", "title": "A worker takes no more of its machine than its settings allow", "statement": "A worker never uses more processors than set, and no more than the machine has: its threads that take jobs are at most so many. It uses none when disabled, before a restart, or without disk space or memory; in idle mode it uses all of the setting or nothing, and in proportional mode the part that others leave, rounded down. The machine counts as idle after ten idle measurements in a row and as in use after five of the other kind, and as idle only after a stretch with ten more idle measurements than twice the others. Options are accepted only if known, the last mode wins, and an accepted number of processors is between one and all; settings saved are found again.", "quantifier": "all settings, files, command lines, sequences of measurements (any length), numbers of processors and threads", "why_tests_cant": "The judgement depends on the whole history of measurements, on timing and on what other programs do; tests run on one machine with its processors and load.", "anchors": ["Code/Tools/FBuild/FBuildWorker/Worker/IdleDetection.cpp:Update", "Code/Tools/FBuild/FBuildWorker/Worker/IdleDetection.cpp:IsIdleInternal", "Code/Tools/FBuild/FBuildWorker/Worker/Worker.cpp:UpdateAvailability", "Code/Tools/FBuild/FBuildWorker/Worker/WorkerSettings.cpp", "Code/Tools/FBuild/FBuildWorker/FBuildWorkerOptions.cpp:ProcessCommandLine", "Code/Tools/FBuild/FBuildCore/WorkerPool/WorkerThreadRemote.cpp:IsEnabled"]}
{"id": "C106", "title": "Every job given to a pool of threads is run once, in order, and a pool that is destroyed ends", "statement": "Jobs given to a thread pool are taken in the order they were given; at any time each job waits, runs or is finished, as often as it was given. While jobs wait, as many idle threads as could run them are on their way to the queue or have a wake-up pending, although signals above the number of threads are dropped on Windows; so a pool with a waiting job and an idle thread never stands still, even if running jobs never end. A pool that is destroyed never gets stuck, and ends after boundedly many actions if jobs stop adding jobs; then all threads are over and every job has been run, unless the destructor began while a thread was between finding the queue empty and looking whether to quit.", "quantifier": "all numbers of threads and jobs, all interleavings of threads and callers, jobs that add jobs, with or without a limit of the semaphore", "why_tests_cant": "Lost wake-ups and shutdown races depend on timing between threads and cannot be provoked reliably.", "anchors": ["Code/Core/Process/ThreadPool.cpp:EnqueueJob", "Code/Core/Process/ThreadPool.cpp:ThreadFunc", "Code/Core/Process/ThreadPool.cpp:~ThreadPool", "Code/Core/Process/Semaphore.cpp:Signal"]}
{"id": "C107", "title": "Copies, text files and lists of dependencies hold what was asked for", "statement": "`Copy` makes exactly one copy for each file its sources stand for, in their order: an alias stands for the files of its targets, a name that is not known stands for a file at the cleaned path. The destination is .Dest, or in a folder the path of the source below .SourceBasePath if it is below it and its file name otherwise. The graph gets nothing else; no destination is a node known before, a source or another destination. It is refused only if a source is a folder, is (or an alias reaches) something that is no file, several files go to one destination that is no folder, or a destination is taken; each with its own error. A copy that is built with success holds the bytes of its source, can be written, is not older than the source, has its own time as stamp, and no other path changes. A text file is the strings each followed by the end of line of the platform, and strings without line breaks can be read back from it. A list of dependencies holds, sorted and once each, exactly the files that non-weak dependencies of the sources depend on and that a pattern (if any) describes.", "quantifier": "all graphs with distinct names and aliases of earlier nodes, all lists of sources, destinations and base paths, all contents of files and all ways in which sendfile, read and write deliver them, all lists of strings, all dependency graphs and patterns", "why_tests_cant": "Tests copy a few small files with one call of sendfile; the splitting of the copy by the system, the fall back in the middle, nested aliases, name clashes among destinations and arbitrary dependency graphs are not enumerable.", "anchors": ["Code/Tools/FBuild/FBuildCore/BFF/Functions/FunctionCopy.cpp: FunctionCopy::Commit, FunctionCopy::GetSourceNodes", "Code/Tools/FBuild/FBuildCore/Graph/CopyFileNode.cpp: CopyFileNode::DoBuild", "Code/Core/FileIO/FileIO.cpp: FileIO::FileCopy", "Code/Tools/FBuild/FBuildCore/Graph/TextFileNode.cpp: TextFileNode::DoBuild", "Code/Tools/FBuild/FBuildCore/Graph/ListDependenciesNode.cpp: FilterFileDependencies, ListDependenciesNode::DoBuild"]}
{"id": "C108", "title": "Strings behave like sequences of bytes and own their memory", "statement": "Whatever is done with strings, in any order, with any of them and whatever fresh memory holds, is never a wrong use of memory: no byte is read or written outside of the memory of the string, the static empty string is not written to, and only what was allocated is freed, once. After it every string has exactly the bytes that the same operations give for sequences of bytes (copy, move, assign from itself or another, append itself or another, lists, trimming, replacing, changing the length and so on), including zero bytes, with a terminator behind them inside of its memory; strings that were not mentioned have not changed. No two strings share memory, all memory that is not freed belongs to one of them, and when all are destroyed nothing is left. Appending characters one by one allocates about as often as the length has bits. (Reserving zero bytes, appending bytes of the string itself when it has to grow, and strings of 2^32-1 bytes are not covered and are shown to fail.)", "quantifier": "all sequences of operations on any number of strings on the heap and on the stack, all contents up to 2^32-2 bytes, all contents of fresh memory", "why_tests_cant": "tests exercise single strings of a few lengths in a fixed order; aliasing, growing out of the stack and moves interact, and an access outside of the memory often goes unnoticed", "anchors": ["Code/Core/Strings/AString.cpp: AString, ~AString, Assign, Clear, ClearAndFreeMemory, SetReserved, SetLength, operator+=, Append, AppendList, Replace, ToLower, ToUpper, Trim, TrimStart, TrimEnd, Copy, Grow, GrowNoCopy", "Code/Core/Strings/AString.h: AString", "Code/Core/Strings/AStackString.h: AStackString"]}
{"id": "C109", "title": "The client of distributed builds: connections, jobs and messages", "statement": "There is at most one connection to a worker and never more than the limit; a pass keeps the connections that have not ended and connects only to workers that have none, are not deny listed and have not failed to answer in the last ten seconds, and afterwards the limit is reached or there is no such worker left. Every distributable job is at every moment in exactly one place: waiting, at one connection, or finished. The jobs of a connection are those on their way to the worker, at the worker or in results on their way back, so no check of client or worker can fail in a conversation. When a connection is lost all its jobs wait again. After a system error the worker gets no more jobs, and a job is tried again after its first two system errors and never after the third. Messages arrive in the order they were queued, each once, only the number of jobs may overtake them, and the sending thread never sleeps while there is something to send. What the client thinks it has told a worker is what the worker has been told.", "quantifier": "all numbers of workers, limits, times and orders of events; all sets of jobs with different ids; all interleavings of the main, receiving and sending threads of any number of connections with all behaviours of workers that follow the protocol, and disconnection at any moment", "why_tests_cant": "The interleavings of three threads per connection with the worker and the moments at which a connection can be lost are unbounded; lost wakeups and lost jobs show in a few of them only.", "anchors": ["Code/Tools/FBuild/FBuildCore/Protocol/Client.cpp: Client::RegisterFoundWorkers, Client::ConnectToWorkers, Client::CommunicateJobAvailability, ClientToWorkerConnection::OnReceive, ClientToWorkerConnection::Process, ClientToWorkerConnection::ProcessJobResultCommon, ClientToWorkerConnection::FindManifest, ClientToWorkerConnection::EnqueueSend, ClientToWorkerConnection::EnqueueSendJobAvailability, ClientToWorkerConnection::SendQueueThreadFunc, ClientToWorkerConnection::SendQueueMainLoop, ClientToWorkerConnection::OnDisconnected", "Code/Tools/FBuild/FBuildCore/Protocol/Server.cpp: Server::Process, Server::FinalizeCompletedJobs"]}
{"id": "C110", "title": "Comparing and searching strings gives the right answers and stays inside the string", "statement": "Two strings are equal exactly if they have the same bytes; comparing gives alphabetical order, which is a strict total order, and ignoring case treats exactly the two cases of the 26 letters as the same. Find gives the first place in the given range at which the other text lies completely inside of the range, FindLast the last place not outside of the given limits, and both give nothing exactly if there is none; the same for characters. BeginsWith and EndsWith hold exactly if the string has such a beginning or end. None of them reads memory outside of the strings.", "quantifier": "for all strings without zero bytes, all texts searched for, all start and end positions inside of the string, with and without letter case", "why_tests_cant": "Tests search a few literals; first/last and range limits must hold for every string, every pattern (overlapping with itself or longer than what is left) and every pair of limits.", "anchors": ["Code/Core/Strings/AString.cpp: AString::operator ==, AString::Compare, AString::CompareI, AString::Find, AString::FindI, AString::FindLast, AString::FindLastI, AString::EndsWith, AString::EndsWithI, AString::BeginsWith, AString::BeginsWithI, AString::StrNCmp, AString::StrNCmpI, AString::StrLen"]}
{"id": "C111", "title": "Programs are given their arguments, and their output and end are those of the program", "statement": "On Linux a program gets the arguments of its command line without quotes and the variables of its environment, one by one, and of this process' pipes only the ends to write its output to. Reading its output gives, in order and separately for standard output and standard error, what the program wrote; if the build is not stopped everything written until the end of the program is there. Reading never blocks for ever, ends once the program has ended, and ends at once when the build is stopped, killing the program and what it started. A program is said to have run too long only if it has a limit and reached it. The result is the exit code of the program, or its signal as a negative number, and the system is asked for it exactly once. All descriptors are closed again.", "quantifier": "for all command lines, environments, outputs, splits of the output into parts, interleavings of the program, programs started by it, the clock and other threads with the reading thread", "why_tests_cant": "What is lost or hangs depends on when data and the end of the program arrive between the system calls of the reader; tests see a few timings.", "anchors": ["Code/Core/Process/Process.cpp: Process::Spawn, Process::SpawnUsingFork, Process::SpawnUsingPosixSpawn, Process::IsRunning, Process::WaitForExit, Process::ReadAllData, Process::Read, Process::ReadCommon, Process::KillProcessTree, Process::Terminate"]}
{"id": "C112", "title": "Jobs go to workers and their files come back", "statement": "A job arrives on a worker as it was sent, with the same preprocessed source under a name of which the compiler deduces the same language. The files a compiler makes on the worker for an object, that is the object, its database, analysis results and alternative object as the options ask for, are written by the client with the same contents under the names they would have had if built locally, whatever compression is used; messages, times and outcome arrive as sent. Failed jobs write nothing, and only system errors are tried again. What arrives can be kept by the cache as it is.", "quantifier": "all jobs, sources, options, contents of files, compression levels and compressors, file names, messages", "why_tests_cant": "The worker and the client decide independently which files there are, in which order and under which names; each combination of options, compressors and names is a case of its own.", "anchors": ["Code/Tools/FBuild/FBuildCore/WorkerPool/Job.cpp: Serialize, Deserialize", "Code/Tools/FBuild/FBuildCore/WorkerPool/JobQueueRemote.cpp: DoBuild, ReadResults", "Code/Tools/FBuild/FBuildCore/Protocol/Server.cpp: FinalizeCompletedJobs", "Code/Tools/FBuild/FBuildCore/Protocol/Client.cpp: ProcessJobResultCommon, WriteFileToDisk", "Code/Tools/FBuild/FBuildCore/Graph/ObjectNode.cpp: SaveRemote, LoadRemote, WriteTmpFile, GetPDBName, GetNativeAnalysisXMLPath, GetAltObjPath, GetPCHObjectName"]}
{"id": "C113", "title": "The include paths a compiler searches by itself are those it says", "statement": "For compilers whose own include paths matter, the compiler is asked with verbose arguments (the standard paths left out as the objects do) and its error output is read: from the first line that starts a list, the indented lines are its paths, in order and without the blanks around them, up to the line that ends the list, whatever else is written before or after. If the compiler fails, can't be started, writes no list or a line that doesn't belong into it, the build of the information fails; if all standard paths are left out the compiler isn't asked and there are none. The stamp is the hash of the paths.", "quantifier": "for all outputs of the compiler, all lists of paths and lines before and after, all settings and what the node had before", "why_tests_cant": "The output differs between compilers, versions and machines, and what remains of an earlier build only shows after the compiler was replaced.", "anchors": ["Code/Tools/FBuild/FBuildCore/Graph/CompilerInfoNode.cpp: CompilerInfoNode::DoBuild, CompilerInfoNode::Migrate"]}
{"id": "C114", "title": "A compiler is taken for what it is", "statement": "A compiler family given by its name, in whatever case, is that family whatever the executable is called, and any other name is an error. If the family is to be found out, the usual executables of each family, with and without .exe, in any directory, with either kind of slash and in any case, are taken for that family, and gcc and g++ followed by a version for gcc; an executable that is none of them is an error or at least not taken for something it isn't.", "quantifier": "for all names of families, all directories, executables and versions", "why_tests_cant": "Paths of compilers differ on each machine, and the directories above the executable are looked at too; tests have a handful of fixed paths.", "anchors": ["Code/Tools/FBuild/FBuildCore/Graph/CompilerNode.cpp: CompilerNode::InitializeCompilerFamily"]}
{"id": "C115", "title": "The summary of a build counts each target once", "statement": "After a build the statistics of each kind of target are those of the targets needed for what was built, each counted once however many others depend on it: how many there are, how many were built, failed, were found in the cache, missed or stored, and the time they took; the totals are those of all kinds, proxies left out. The list of the most expensive has up to twenty of them, none twice, those that took longest and these first. There is a summary if it is wanted, unless the build failed and none is wanted then.", "quantifier": "for all graphs (shared targets, any depth, also with cycles), all flags and times", "why_tests_cant": "Counts depend on how dependencies are shared in the whole graph; tests count a few small graphs.", "anchors": ["Code/Tools/FBuild/FBuildCore/Helpers/FBuildStats.cpp: FBuildStats::GatherPostBuildStatistics, FBuildStats::GatherPostBuildStatisticsRecurse, FBuildStats::OutputSummary, FBuildStats::OnBuildStop"]}
{"id": "C116", "title": "Xcode projects hold together", "statement": "In a generated project.pbxproj every identifier in a field is that of an object of a kind the field is for, no two objects share an identifier, and the root object is the one project. There is one file reference for each file added; each is a child of exactly one group and each group except the main one a child of exactly one other. A file is shown under groups named after the directories of its path relative to the longest base path, files of one directory share one group, and each is in the sources phase. Each list of configurations has all of them in order. Settings, lists of settings and scheme arguments are read back by a property list (or XML) reader as the values given.", "quantifier": "for all base paths, files, configuration names, setting values and arguments, of any number and length", "why_tests_cant": "The tests generate a handful of projects and look whether the file exists; nothing parses it, and no test has names needing quotes, or many configurations.", "anchors": ["Code/Tools/FBuild/FBuildCore/Helpers/XCodeProjectGenerator.cpp: GeneratePBXProj, WriteFiles, WriteFolders, WriteBuildCommand, WriteGeneralSettings, WritePBXSourcesBuildPhase, WriteBuildConfiguration, WriteConfigurationList, WriteString, WriteArray, ProcessString, EscapeArgument", "Code/Tools/FBuild/FBuildCore/Helpers/ProjectGeneratorBase.cpp: AddFile, GetFolderFor, SortFilesAndFolders, GetProjectRelativePath_Deprecated"]}
{"id": "C117", "title": "Programs get the environment that was asked for", "statement": "A program run by the build gets exactly the variables of its own .Environment; without one, those of the .Environment of the settings; without that either, it inherits the environment of the build. The variables are the same when the settings are loaded from the database instead of read from the build files. The library path that the build uses for linker inputs is the value of LIB in that environment. Preparing the environment never touches memory outside of what was allocated.", "quantifier": "for all lists of variables of any number and length, and all contents of freshly allocated memory", "why_tests_cant": "tests use a few variables and cannot see writes one byte outside of an allocation", "anchors": ["Code/Tools/FBuild/FBuildCore/Graph/SettingsNode.cpp: SettingsNode::ProcessEnvironment", "Code/Tools/FBuild/FBuildCore/FBuild.cpp: FBuild::SetEnvironmentString, FBuild::GetLibEnvVar", "Code/Core/Env/Env.cpp: Env::AllocEnvironmentString", "Code/Tools/FBuild/FBuildCore/Graph/Node.cpp: Node::GetEnvironmentString", "Code/Core/Process/Process.cpp: Process::Spawn", "Code/Tools/FBuild/FBuildCore/Graph/NodeGraph.cpp: NodeGraph::Save, NodeGraph::Load"]}
{"id": "C118", "title": "Concurrency groups get the limits they ask for", "statement": "A list of concurrency groups is accepted if and only if there are at most 16, each has a name of its own up to case, none is empty, and each has a limit. Each group's limit is the largest number of its jobs that respects its job limit and fits into the memory of the machine, and is at least one. A target that names a group, in any case, belongs to that group; an unknown name is an error; no name means no limit.", "quantifier": "for all lists of groups, limits, names and sizes of memory", "why_tests_cant": "tests use a handful of groups on the memory of one machine", "anchors": ["Code/Tools/FBuild/FBuildCore/Graph/SettingsNode.cpp: SettingsNode::InitializeConcurrencyGroups, SettingsNode::GetConcurrencyGroup", "Code/Tools/FBuild/FBuildCore/Graph/Node.cpp: Node::InitializeConcurrencyGroup"]}
{"id": "C119", "title": "The profile of a build is JSON and shows what was recorded", "statement": "The file written by -profile is valid JSON whatever the file held before. It has every recorded step once and in order, with its times, machine, thread and target; the machine and the thread of every remote step have a name; and reading the memory and connection counters up to any sample gives the values of that sample.", "quantifier": "for all sequences of recorded steps, samples, names of targets and worker counts", "why_tests_cant": "tests only check that a file is written", "anchors": ["Code/Tools/FBuild/FBuildCore/Helpers/BuildProfiler.cpp: BuildProfiler::RecordLocal, BuildProfiler::RecordRemote, BuildProfiler::Serialize, BuildProfiler::SaveJSON", "Code/Tools/FBuild/FBuildCore/Helpers/JSON.cpp: JSON::AppendEscaped", "Code/Tools/FBuild/FBuildCore/Protocol/Client.cpp: Client::RegisterFoundWorkers"]}
{"id": "C120", "title": "Using puts exactly the members of a struct into the scope", "statement": "Using( .S ) in a scope gives each variable of the scope that has the name of a member the value of this member, adds the members the scope did not have in the order of the struct (one with the name of the struct itself last), and changes no other variable, no scope around, and nothing else of the state. What follows sees every member with its value and everything else as before. Doing it twice is the same as doing it once. Using( ^S ) does the same with a struct of a scope around. A name that cannot be seen or is no struct is an error.", "quantifier": "all scopes, structs, names and programs around the call", "why_tests_cant": "Tests use a few structs of two or three members; which variables are overwritten, added or kept depends on every combination of names in the struct, the scope, the scopes around and the struct's own name, which may be overwritten while its members are read.", "anchors": ["Code/Tools/FBuild/FBuildCore/BFF/Functions/FunctionUsing.cpp: ParseFunction", "Code/Tools/FBuild/FBuildCore/BFF/BFFStackFrame.cpp: SetVar, GetParentDeclaration, GetVar", "Code/Tools/FBuild/FBuildCore/BFF/BFFVariable.cpp: SetValueStruct, SetValueString"]}
{"id": "C121", "title": "The memory of jobs is counted exactly, freed once, and bounded by the limit and one file per thread", "statement": "With any number of threads, whatever the order of their steps: while no thread is replacing the data of a job, the total that is reported and tested against the limit is the sum of the data of all local jobs; it is never below zero; each buffer belongs to one job and is freed once; when all jobs are deleted the total is zero and nothing is leaked. The data of the jobs that wait for other computers is never more than the limit of the settings plus one file (and the header of its compressed form) for each thread.", "quantifier": "all numbers of jobs and threads, all sizes, all interleavings of the steps", "why_tests_cant": "The total is one number that all threads change without a lock, in two steps with a gap between them; the orders of steps cannot be enumerated by tests, and the limit is passed only if tests fall into the gap.", "anchors": ["Code/Tools/FBuild/FBuildCore/WorkerPool/Job.cpp: OwnData, ~Job, GetTotalLocalDataMemoryUsage", "Code/Tools/FBuild/FBuildCore/Graph/ObjectNode.cpp: DoBuildWithPreProcessor, TransferPreprocessedData, LoadStaticSourceFileForDistribution, WriteTmpFile, BuildFinalOutput", "Code/Tools/FBuild/FBuildCore/WorkerPool/JobQueue.cpp: ~JobQueue", "Code/Tools/FBuild/FBuildCore/WorkerPool/JobQueueRemote.cpp: ReadResults"]}
{"id": "C122", "title": "The report of a build counts each object in one library", "statement": "With -report, the report has one row for each library, DLL, object list and C# DLL needed by the target, sorted by time. Each object needed is counted in exactly one of the libraries that need it, whatever the sharing between libraries: the numbers of objects, of those out of date, cacheable, hit and stored add up to those of the objects of the build. In each row hits and stores are among the cacheable, those among the ones out of date, and those among the objects.", "quantifier": "all dependency graphs (with sharing and cycles), all results of nodes, all sort orders of equal times", "why_tests_cant": "Double counting depends on the shape of the graph and on the order in which shared libraries and objects are reached; a test looks at one graph.", "anchors": ["Code/Tools/FBuild/FBuildCore/Helpers/Report/Report.cpp: GetLibraryStats, GetLibraryStatsRecurse"]}
{"id": "C123", "title": "The JSON report is JSON and says what was built", "statement": "The file written by -report=json is JSON, of a value that has the command line, targets, result and times, the numbers of each type of node, the cache statistics of each library with work, the time of each library, each node by time, and the included files of each library.", "quantifier": "all numbers of types, libraries, nodes and included files, all names, all results", "why_tests_cant": "Whether commas are right depends on which libraries are left out of which section; whether strings are right depends on the characters of names. Tests write a few reports and do not parse them.", "anchors": ["Code/Tools/FBuild/FBuildCore/Helpers/Report/JSONReport.cpp: Generate, CreateOverview, DoCPUTimeByType, DoCacheStats, DoCPUTimeByLibrary, DoCPUTimeByItem, DoIncludes", "Code/Core/Strings/JSON.cpp: Escape"]}
{"id": "C124", "title": "Each scope and each struct of a build file has a name once", "statement": "When a build file is evaluated, with built-in variables that have different names, then after each statement, at any depth, each scope has at most one variable of a name, and each struct held by a variable, in another struct or in an array of structs, however deep, has at most one member of a name. So what a function that makes nodes can see, and what Print shows of a variable, has each name once, and it does not depend on the order in which a name is looked for in a scope or a struct.", "quantifier": "all sequences of tokens, built-in variables with different names, decisions of the functions that make nodes, and depths", "why_tests_cant": "Tests look up single names and find the first; a second variable of the same name, made by one of the many ways to write (assignment, concatenation of structs, Using, ForEach, arguments of user functions, assignment to a parent's variable), would be hidden behind it until the first is passed over.", "anchors": ["Code/Tools/FBuild/FBuildCore/BFF/BFFStackFrame.cpp: SetVar, GetVarRecurse", "Code/Tools/FBuild/FBuildCore/BFF/BFFVariable.cpp: ConcatVarsRecurse", "Code/Tools/FBuild/FBuildCore/BFF/BFFParser.cpp: StoreVariableStruct, StoreVariableToVariable, StoreVariableArray", "Code/Tools/FBuild/FBuildCore/BFF/Functions/FunctionUsing.cpp: ParseFunction", "Code/Tools/FBuild/FBuildCore/BFF/Functions/FunctionForEach.cpp: ParseFunction"]}
{"id": "C125", "title": "What Print shows of a variable can be put into a build file", "statement": "The text that Print( .Name ) writes for a variable is build file syntax: put into a build file, at any indentation and between any two statements, it is read as one statement that gives the variable exactly the value it was printed with, and nothing else that can be seen changes; where the variable can be seen it changes nothing. A file of this text alone has the variable and no other.", "quantifier": "all names, values of any size and depth, indentations, states between two statements and following tokens", "why_tests_cant": "The output is read by people and no test reads it back; whether it is faithful depends on every character of every string, on the numbers, and on the types of all members of nested structs against names visible around them.", "anchors": ["Code/Tools/FBuild/FBuildCore/BFF/Functions/FunctionPrint.cpp: ParseFunction, PrintVarRecurse", "Code/Tools/FBuild/FBuildCore/BFF/Tokenizer/BFFTokenizer.cpp: Tokenize", "Code/Tools/FBuild/FBuildCore/BFF/BFFParser.cpp: ParseVariableDeclaration, StoreVariableString, StoreVariableArray, StoreVariableStruct"]}
{"id": "C126", "title": "The include statistics of the report count each header by the objects of the library that include it", "statement": "For each library, the report of a build lists each header that an object of the library includes, and no other file, exactly once, the most included first. The number given with a header is how many objects of the library include it, so it is never above the number of objects, and a header is marked as part of a precompiled header exactly if an object of the library that creates a precompiled header includes it. None of this depends on the hashes of the names.", "quantifier": "all dependency graphs without cycles, libraries, names and hashes of names, and any sorting by number", "why_tests_cant": "Tests only check that a report is written. A header missing because its hash collides with another, or an object counted twice because two lists share it, is one number among thousands.", "anchors": ["Code/Tools/FBuild/FBuildCore/Helpers/Report/Report.cpp: GetIncludeFilesRecurse, AddInclude, IncludeStatsMap::Find, Insert, Flatten", "Code/Tools/FBuild/FBuildCore/Helpers/Report/JSONReport.cpp: DoIncludes", "Code/Tools/FBuild/FBuildCore/Helpers/Report/HTMLReport.cpp: DoIncludes"]}
{"id": "C127", "title": "A monitor reads from the log of a build exactly what was written", "statement": "With -monitor, each start and end of a job, of the build, and each report of progress and memory is one line of the log, whatever the messages of a job contain: a reader that splits lines at their ends and fields at the first space and at the quotes gets all events, in order, with time, worker, name and result as they were, also for names with spaces and quotes, and the message with ends of lines as form feeds and quotes as single quotes. While the build runs, with any part of the file written, it gets the first of the events and nothing else. The name of a job cannot make the log say something else.", "quantifier": "all sequences of events, names, workers, lists of messages of any size and content, and all prefixes of the file", "why_tests_cant": "No test reads the log; compilers write arbitrary text, and one quote or end of line not replaced shifts every field after it.", "anchors": ["Code/Tools/FBuild/FBuildCore/FLog.cpp: Monitor, StartBuild, StopBuild", "Code/Tools/FBuild/FBuildCore/WorkerPool/Job.cpp: GetMessagesForLog, GetMessagesForMonitorLog", "Code/Tools/FBuild/FBuildCore/WorkerPool/JobQueue.cpp: DoBuild", "Code/Tools/FBuild/FBuildCore/WorkerPool/JobQueueRemote.cpp: DoBuild", "Code/Tools/FBuild/FBuildCore/Protocol/Client.cpp: ProcessJobResultCommon"]}
{"id": "C128", "title": "A project that is not generated brings its identifier and the usual configurations to a solution", "statement": "A VSProjectExternal without a ProjectGuid in the build file takes the text between the first ProjectGuid tags of the project file, in any case of letters, with braces added where they are missing; it fails if the file is missing, cannot be read or has not both tags. After a change of the file the identifier is that of the file. An identifier of the build file is kept. A solution can use the configurations of the build file, in their order, followed by those of the four usual ones that are missing, each once.", "quantifier": "all texts of project files, members given in the build file, states of earlier builds, answers of the module that reads projects", "why_tests_cant": "The one test builds one project once; other files, orders of tags, braces, and builds after a change are not covered.", "anchors": ["Code/Tools/FBuild/FBuildCore/Graph/VSProjectExternalNode.cpp: Initialize, DoBuild, CopyConfigs", "Code/Core/Strings/AString.cpp: FindI"]}
{"id": "C129", "title": "Progress of a build is never above what was done, and never goes back", "statement": "The estimate behind the progress of a build never has more time for built nodes than for all nodes, and the two are equal exactly when each node that the target needs and that takes time is up to date; each node counts with its time once. The percentage that is shown never goes back during a build and stays below 100.", "quantifier": "all dependency graphs without cycles, states and times of nodes, results of earlier estimates, and roundings that keep the order", "why_tests_cant": "Progress depends on the states of all nodes at each moment of a build, with sums kept from one estimate to the next; tests do not look at it.", "anchors": ["Code/Tools/FBuild/FBuildCore/Graph/NodeGraph.cpp: UpdateBuildStatus, UpdateBuildStatusRecurse", "Code/Tools/FBuild/FBuildCore/FBuild.cpp: UpdateBuildStatus"]}
{"id": "C130", "title": "Messages of workers do not look like errors to MSBuild, and lose nothing else", "statement": "Cleaning a message of a worker ends for every message and changes nothing but colons, which become spaces, so the length is kept. A message without the words error and warning followed by a space is kept as it is. In a message with any number of errors, each a word error in any case of letters, white space, a code and white space before a colon, each of these colons becomes a space and all else is kept.", "quantifier": "all messages", "why_tests_cant": "Messages are any text that compilers and workers write; tests have some short ones.", "anchors": ["Code/Tools/FBuild/FBuildCore/Graph/Node.cpp: CleanMessageToPreventMSBuildFailure", "Code/Tools/FBuild/FBuildCore/Protocol/Client.cpp: ProcessJobResultCommon"]}
{"id": "C131", "title": "Lines of compilers are changed in their position only", "statement": "With fixed paths for Visual Studio, a line path:row:column, or path(row,column), before a tag such as : error: becomes path(row,column) with a cleaned path, for paths with any number of colons; a line path(...) before a tag with a number gets its path cleaned. All from the tag on is kept, or the line is not changed. A line that has no tag and does not begin with warning or error is kept. A path of a mounted drive becomes a path of Windows. No assertion fails for any line.", "quantifier": "all lines, all path cleanings and number scans", "why_tests_cant": "Lines are whatever compilers write, with quotes, colons and brackets in any place; tests have one line per style.", "anchors": ["Code/Tools/FBuild/FBuildCore/Graph/Node.cpp: FixupPathForVSIntegration, FixupPathForVSIntegration_GCC, FixupPathForVSIntegration_SNC, FixupPathForVSIntegration_VBCC, CleanPathForVSIntegration"]}
