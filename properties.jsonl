{"id": "C01", "title": "Variable-length uint32 round trip", "statement": "Writing any uint32 with WriteVUInt32 and reading it back with ReadVUInt32 yields the same value, consumes exactly the bytes that were written, and does not depend on which bytes follow in the stream; the number of bytes written is between 1 and 5.", "quantifier": "every uint32 value and every sequence of bytes before and after it", "why_tests_cant": "2^32 values times unboundedly many following byte strings; the reader has two code paths selected by what follows", "anchors": ["pkg/store/byte_output.go:WriteVUInt32", "pkg/store/byte_input.go:ReadVUInt32"]}
{"id": "C02", "title": "ReadVUInt32 paths agree and failures do not move the cursor", "statement": "ReadVUInt32 returns the same value/error and leaves the same cursor no matter whether the fast (>=5 bytes left) or the byte-at-a-time path is the one a caller reaches, never reads outside the data, and consumes between 1 and 5 bytes on success.", "quantifier": "every byte buffer (also corrupt ones) and every cursor position", "why_tests_cant": "arbitrary corrupt byte strings of any length", "anchors": ["pkg/store/byte_input.go:ReadVUInt32"]}
{"id": "C03", "title": "Delta/variable-byte posting list round trip", "statement": "Decoding with the VB decoder what the VB encoder wrote gives back the list exactly, for every list of uint32 (sorted or not, deltas wrap modulo 2^32), reports exactly its length, and consumes exactly the number of bytes Encode reported.", "quantifier": "every list of uint32 of any length and every suffix of bytes after it", "why_tests_cant": "unbounded lists", "anchors": ["pkg/compression/varint.go"]}
{"id": "C04", "title": "Skipping posting list round trip", "statement": "For every gap accepted by SkippingEncoder with gap>=1 and every list of at least gap elements, decoding what was encoded restores the list, and Encode reports the number of bytes written.", "quantifier": "every legal gap, every list of uint32 with length >= gap, every suffix of bytes after it", "why_tests_cant": "unbounded lists and all gaps", "anchors": ["pkg/compression/skipping.go"]}
{"id": "C05", "title": "Skipping Decode reports the number of decoded elements", "statement": "Decode of the skipping decoder returns the number of elements it decoded.", "quantifier": "every legal gap and list", "why_tests_cant": "holds on lists whose length is a multiple of the gap, which is what the tests use; the count overshoots on all others", "anchors": ["pkg/compression/skipping.go:Decode"]}
{"id": "C06", "title": "Fixed-width posting list round trip", "statement": "Decoding what BinaryEncoder wrote restores the list exactly and consumes 4 bytes per element.", "quantifier": "every list of uint32", "why_tests_cant": "unbounded lists", "anchors": ["pkg/compression/binary.go", "pkg/store/byte_input.go:ReadUInt32"]}
{"id": "C07", "title": "Input bounds safety", "statement": "No operation on a byte input (Read, ReadByte, ReadUInt16/32, ReadVUInt32, Seek, ReadAt, Slice) reads outside the data it was created with; the cursor never becomes negative and a read of fixed size either returns exactly the bytes at the cursor and advances, or fails and leaves the cursor unchanged; Slice(off,n) behaves as an input over exactly those n bytes.", "quantifier": "every buffer, every history of operations with every argument", "why_tests_cant": "unbounded operation histories and arguments (negative offsets, huge sizes)", "anchors": ["pkg/store/byte_input.go"]}
{"id": "C08", "title": "Variable-byte posting list is a list iterator", "statement": "A posting list iterator over a VB-encoded list observed through Get/HasNext/Next/LowerBound/Len behaves exactly like an iterator over the decoded in-memory list, for every sequence of operations, including operations past the end.", "quantifier": "every sorted list of document ids and every operation sequence", "why_tests_cant": "operation sequences and lists are unbounded", "anchors": ["pkg/index/posting_list.go"]}
{"id": "C09", "title": "Skipping posting list is a list iterator", "statement": "Same as for the VB posting list, for the skip-encoded iterator whose LowerBound jumps over blocks: LowerBound(x) lands on the first remaining element >= x, returns it, and all later observations are as if elements had been scanned one by one.", "quantifier": "every sorted list with at least gap elements, every gap and every operation sequence", "why_tests_cant": "block boundaries, rollback and last-block handling interact over unbounded sequences", "anchors": ["pkg/index/skipping_posting_list.go", "pkg/compression/skipping.go:UnpackPos"]}
{"id": "C10", "title": "Bitmap posting list is a list iterator", "statement": "Assuming the contract of the roaring bitmap library, the bitmap posting list behaves like an iterator over the sorted list of its members for every operation sequence.", "quantifier": "every set of uint32 and every operation sequence", "why_tests_cant": "operation sequences and sets are unbounded", "anchors": ["pkg/index/bitmap_posting_list.go"]}
{"id": "C11", "title": "Encoder and posting list reader agree for every list size", "statement": "For every posting list length the encoder chosen when writing and the posting list chosen when reading are of the same format, so a reader opened on what the writer wrote iterates exactly the list written.", "quantifier": "every list length and every sorted list", "why_tests_cant": "the choice has several size thresholds on two different code paths; all sizes must agree", "anchors": ["pkg/index/codec.go"]}
{"id": "C12", "title": "ScanCount returns exactly the T-occurrences", "statement": "ScanCount over strictly ascending posting lists delivers to the collector exactly the positions that occur in at least T of the lists, each once, in ascending order, together with the exact number of lists containing it.", "quantifier": "every finite family of strictly ascending lists (empty lists included unless T equals the number of lists), every threshold, every collector", "why_tests_cant": "unbounded lists and thresholds", "anchors": ["pkg/merger/scan_count.go"]}
{"id": "C13", "title": "CPMerge returns exactly the T-occurrences", "statement": "CPMerge (prune with the first N-T+1 lists, then probe the remaining ones) delivers exactly the positions contained in at least T lists with the exact overlap, in ascending order.", "quantifier": "every finite family of strictly sorted lists, every 1<=T<=N, any order among lists of equal length", "why_tests_cant": "pruning is correct only by a counting argument over all families of lists", "anchors": ["pkg/merger/cp_merge.go"]}
{"id": "C14", "title": "MergeSkip returns exactly the T-occurrences", "statement": "MergeSkip (heap of list heads, popping T-1 and skipping with LowerBound) delivers exactly the positions contained in at least T lists with the exact overlap, in ascending order.", "quantifier": "every finite family of strictly sorted nonempty lists, every T>=1", "why_tests_cant": "skipping is correct only by a counting argument; heap contents at each step depend on the whole history", "anchors": ["pkg/merger/merge_skip.go"]}
{"id": "C15", "title": "DivideSkip returns exactly the T-occurrences", "statement": "DivideSkip (MergeSkip on the short lists with threshold T-L, probing the L long ones) delivers exactly the positions contained in at least T lists with the exact overlap, in ascending order.", "quantifier": "every finite family of strictly sorted lists, every T, every mu", "why_tests_cant": "the number of long lists is chosen by a formula with a logarithm of the longest list", "anchors": ["pkg/merger/divide_skip.go"]}
{"id": "C16", "title": "List intersector returns exactly the intersection", "statement": "Intersect delivers exactly the positions contained in all lists, in ascending order, with overlap equal to the number of lists.", "quantifier": "every finite family of strictly sorted lists", "why_tests_cant": "unbounded lists", "anchors": ["pkg/merger/list_intersector.go"]}
{"id": "C17", "title": "All merge algorithms are interchangeable", "statement": "For the same lists and the same threshold all merge algorithms deliver the same candidate sequence to the collector, and if the collector stops early they all deliver the same prefix and report success.", "quantifier": "every family of lists, threshold, collector and stopping point", "why_tests_cant": "relates different algorithms over an unbounded input space", "anchors": ["pkg/merger"]}
{"id": "C18", "title": "Merge candidates pack position and overlap losslessly", "statement": "A candidate built with any 32-bit position and any 16-bit overlap reports both back unchanged; incrementing raises the overlap by one and leaves the position unchanged until the overlap limit; a merge in which a position occurs in more lists than the limit panics instead of delivering a wrong overlap.", "quantifier": "every position and overlap value, every family of lists", "why_tests_cant": "2^48 combinations", "anchors": ["pkg/merger/list_merger.go:MergeCandidate"]}
{"id": "C19", "title": "Written index is read back exactly", "statement": "After adding documents and committing, opening the index returns for every term and every cardinality exactly the ascending list of ids of the documents with that cardinality containing the term, and no posting list for any other term.", "quantifier": "every finite sequence of documents, every term, every cardinality", "why_tests_cant": "unbounded documents; offsets and sizes are computed cumulatively over all terms", "anchors": ["pkg/index/indexer_writer.go", "pkg/index/index_reader.go", "pkg/index/inverted_index.go"]}
{"id": "C20", "title": "Index contents do not depend on map iteration order", "statement": "The posting lists observable after Commit do not depend on the (random) order in which Go iterates over the term map.", "quantifier": "every permutation of the term map at every cardinality", "why_tests_cant": "Go randomizes the order; factorially many orders", "anchors": ["pkg/index/indexer_writer.go:Commit"]}
{"id": "C21", "title": "Crash during Commit never yields silently wrong postings", "statement": "If the process dies at any point during Commit the index opened afterwards either is the old one, the new one, or fails to open/read: it never returns a wrong posting list.", "quantifier": "every crash point and every pair of old and new index", "why_tests_cant": "crash points between and inside file writes", "anchors": ["pkg/index/indexer_writer.go:Commit", "pkg/store/fs_directory.go"]}
{"id": "C22", "title": "Rebuilding over an existing index replaces it", "statement": "Committing an index a second time to the same directory makes the reader see the new index.", "quantifier": "every pair of indexes, both directory implementations", "why_tests_cant": "depends on how CreateOutput treats existing content, in each implementation", "anchors": ["pkg/store/ram_directory.go", "pkg/store/fs_directory.go"]}
{"id": "C23", "title": "Adding any document never crashes the index writer", "statement": "AddDocument succeeds for every document id and every list of terms, including the empty one.", "quantifier": "every history of AddDocument calls", "why_tests_cant": "the failing history starts with a document without terms", "anchors": ["pkg/index/indexer_writer.go:AddDocument"]}
{"id": "C24", "title": "Index search returns exactly the matching documents", "statement": "Search for a list of terms with a threshold T on an index delivers exactly the documents that contain at least T of the query terms that exist in the index (counted with multiplicity of query terms), with the exact number, ascending.", "quantifier": "every index, every query term list, every threshold", "why_tests_cant": "composition of reader, term filter and merger for all inputs", "anchors": ["pkg/index/searcher.go"]}
{"id": "C25", "title": "TopK queue keeps the best k", "statement": "After any sequence of Add calls the queue of capacity k holds exactly the k best candidates added so far (all if fewer), best meaning higher score and, on equal scores, smaller key, and it never holds more than k.", "quantifier": "every k>=1 and every sequence of candidates of any length", "why_tests_cant": "heap states depend on the whole history", "anchors": ["pkg/suggest/topk.go"]}
{"id": "C26", "title": "Reading results is sorted and non-destructive", "statement": "GetCandidates returns the held candidates ordered from best to worst and can be repeated and interleaved with Add: reading never changes what the queue holds.", "quantifier": "every history of Add and GetCandidates calls", "why_tests_cant": "implementation reorders the same backing memory while reading", "anchors": ["pkg/suggest/topk.go:GetCandidates"]}
{"id": "C27", "title": "Merging queues equals one queue over all candidates", "statement": "Merging a queue into another gives the k best of all the candidates added to either.", "quantifier": "every pair of histories", "why_tests_cant": "unbounded histories", "anchors": ["pkg/suggest/topk.go:Merge"]}
{"id": "C28", "title": "Similarity metrics: thresholds lose nothing and keep nothing wrong", "statement": "For Jaccard, Dice, Cosine and Overlap, in exact arithmetic: a document of cardinality b sharing o terms with a query of cardinality a has similarity >= alpha iff o >= Threshold(alpha,a,b), and then MinY<=b<=MaxY; the reported score is that similarity. For Exact: a document passes MinY, MaxY and Threshold iff it has exactly the query's terms.", "quantifier": "every alpha in (0,1], every a,b>=1, every overlap o<=min(a,b)", "why_tests_cant": "continuum of alpha; all sizes", "anchors": ["pkg/metric"]}
{"id": "C29", "title": "Suggest returns the true top-k under every goroutine schedule", "statement": "Suggest(query, alpha, metric, k) returns the k best of all indexed documents with score >= alpha, whatever the interleaving of the worker goroutines and the moments at which they observe the raised lower bound.", "quantifier": "every index, query, alpha, metric, k and every schedule", "why_tests_cant": "schedules and data are unbounded; the pruning threshold is shared and updated concurrently", "anchors": ["pkg/suggest/suggester.go", "pkg/suggest/topk.go"]}
{"id": "C30", "title": "Suggest always terminates without panic", "statement": "Suggest neither blocks forever nor panics, for every query length.", "quantifier": "every index, query length, alpha, metric and schedule", "why_tests_cant": "depends on the relation of query cardinality to the largest indexed cardinality", "anchors": ["pkg/suggest/suggester.go:Suggest"]}
{"id": "C31", "title": "Suggest is deterministic up to ties", "statement": "Two runs of Suggest with the same input return the same list of scores, and the same list of documents, because ties are broken by document id.", "quantifier": "every pair of schedules", "why_tests_cant": "goroutine schedules vary between runs", "anchors": ["pkg/suggest/suggester.go", "pkg/suggest/topk.go:Less"]}
{"id": "C32", "title": "Search configuration validation", "statement": "NewSearchConfig accepts exactly the configurations with topK >= 1 and similarity in (0,1].", "quantifier": "every float and every int", "why_tests_cant": "special float values (NaN)", "anchors": ["pkg/suggest/search.go:NewSearchConfig"]}
{"id": "C33", "title": "Autocomplete returns the first limit prefix matches", "statement": "Autocomplete(query, limit) returns exactly limit smallest-id documents (or all if fewer) among those containing all query terms, independent of the order in which the per-cardinality searches finish.", "quantifier": "every index, query, limit and schedule", "why_tests_cant": "goroutine schedules and data are unbounded", "anchors": ["pkg/suggest/autocomplete.go", "pkg/suggest/collector.go"]}
{"id": "C34", "title": "Autocomplete never loses a document having the query as prefix", "statement": "Every document whose text starts with the query text contains all of the query's autocomplete terms.", "quantifier": "every document, every prefix of it, every n-gram size", "why_tests_cant": "unbounded strings", "anchors": ["pkg/suggest/tokenizer.go", "pkg/analysis/ngram_tokenizer.go"]}
{"id": "C35", "title": "A dictionary and its index are always published together", "statement": "A reader of the service never observes the index of one build together with the dictionary of another one; a reader sees the state before or after each AddIndex call.", "quantifier": "every interleaving of AddIndex and readers", "why_tests_cant": "interleavings", "anchors": ["pkg/suggest/service.go"]}
{"id": "C36", "title": "A failed AddIndex changes nothing", "statement": "If building the index or opening the dictionary fails the service keeps answering from the previous state.", "quantifier": "every history with failures at any build step", "why_tests_cant": "histories of failures", "anchors": ["pkg/suggest/service.go:AddIndex"]}
{"id": "C37", "title": "N-gram tokenizer yields the distinct windows", "statement": "For every text of at least n characters the tokenizer returns every contiguous window of n characters once, in order of first occurrence; shorter texts yield the documented result.", "quantifier": "every text (any unicode) and every n in 1..8", "why_tests_cant": "unbounded strings", "anchors": ["pkg/analysis/ngram_tokenizer.go"]}
{"id": "C38", "title": "Word tokenizer yields maximal alphabet runs", "statement": "The word tokenizer returns exactly the maximal runs of alphabet characters of the lower-cased text in order; joining is independent of separators used.", "quantifier": "every text and alphabet", "why_tests_cant": "unbounded strings", "anchors": ["pkg/analysis/word_tokenizer.go"]}
{"id": "C39", "title": "Alphabets contain exactly what they list", "statement": "Has of a sequential, simple, composite alphabet is true exactly for the characters in the range, list, union; the English, Russian and number alphabets contain exactly the expected letters.", "quantifier": "every rune and every composite", "why_tests_cant": "all runes and compositions", "anchors": ["pkg/alphabet"]}
{"id": "C40", "title": "Normalisation keeps tokens distinct", "statement": "The tokens produced for a document are pairwise distinct, so a document id occurs at most once in a posting list.", "quantifier": "every text", "why_tests_cant": "two different n-grams may be normalised to the same token", "anchors": ["pkg/analysis/normalizer.go", "pkg/suggest/tokenizer.go"]}
{"id": "C41", "title": "Count trie counts exactly", "statement": "After any sequence of Put(sentence,count) the trie walk reports every inserted nonempty sentence path exactly once with the sum of the counts put for it (uint32 arithmetic).", "quantifier": "every history of Put calls", "why_tests_cant": "unbounded histories", "anchors": ["pkg/lm/count_trie.go"]}
{"id": "C42", "title": "N-gram counts equal the number of occurrences", "statement": "Building n-grams from sentences yields for every n-gram of every order the number of occurrences in the wrapped sentences, independent of how sentences are distributed over time.", "quantifier": "every list of sentences, every order", "why_tests_cant": "unbounded corpora", "anchors": ["pkg/lm/ngram_builder.go", "pkg/lm/generator.go"]}
{"id": "C43", "title": "Packed array lookup equals a map", "statement": "Looking up (word, context) in a built n-gram vector returns the sum of the counts put for that pair and a context offset that identifies it, and InvalidContextOffset/0 for pairs never put.", "quantifier": "every set of (context, word, count) entries", "why_tests_cant": "binary-search over unbounded sorted arrays, with packing of two 32-bit values", "anchors": ["pkg/lm/packed_array.go", "pkg/lm/ngram_vector.go"]}
{"id": "C44", "title": "Language model score is stupid back-off over exact counts", "statement": "The score of an n-gram equals the stupid back-off formula computed on the exact counts of the model.", "quantifier": "every model and every n-gram up to the order", "why_tests_cant": "unbounded models", "anchors": ["pkg/lm/ngram_model.go"]}
{"id": "C45", "title": "Next-word candidates use the most recent words", "statement": "Next(sequence) scores continuations using the last order-1 words of the sequence.", "quantifier": "every sequence length and order", "why_tests_cant": "off by one exactly when the sequence length equals the order", "anchors": ["pkg/lm/language_model.go:Next"]}
{"id": "C46", "title": "Minimal perfect hash is injective on the dictionary", "statement": "If Build succeeds, Get maps the n dictionary words to n distinct values in 0..n-1.", "quantifier": "every set of distinct words and every bucket order", "why_tests_cant": "displacement search over unbounded dictionaries", "anchors": ["pkg/mph/mph.go"]}
{"id": "C47", "title": "Indexer identifies exactly the dictionary words", "statement": "Get returns the id of a word of the dictionary and UnknownWordID for every other word; Find is its inverse.", "quantifier": "every dictionary and every query word", "why_tests_cant": "unbounded", "anchors": ["pkg/lm/indexer.go"]}
{"id": "C48", "title": "Stored models load back identical", "statement": "Loading a stored minimal perfect hash or n-gram model gives a structure answering every query as before.", "quantifier": "every stored structure", "why_tests_cant": "unbounded", "anchors": ["pkg/mph/mph.go:Store", "pkg/lm/binary.go", "pkg/lm/packed_array.go"]}
{"id": "C49", "title": "N-gram files read back what was written", "statement": "Reading the Google n-gram files written by the writer yields the same counts.", "quantifier": "every count trie whose words contain no tab/newline/space", "why_tests_cant": "unbounded", "anchors": ["pkg/lm/ngram_writer.go", "pkg/lm/ngram_reader.go"]}
{"id": "C50", "title": "Predict returns at most topK results", "statement": "Spellchecker.Predict(query, topK) returns at most topK candidates.", "quantifier": "every query, index, model, topK", "why_tests_cant": "off by one when enough candidates exist", "anchors": ["pkg/spellchecker/spellchecker.go"]}
{"id": "C51", "title": "Predict returns no duplicate words", "statement": "The list of candidates contains no duplicates.", "quantifier": "every index, model, query", "why_tests_cant": "merging of two candidate sources", "anchors": ["pkg/spellchecker/spellchecker.go"]}
{"id": "C52", "title": "Predict orders candidates by language model score", "statement": "Candidates are returned in descending order of the language model score in the context of the query.", "quantifier": "every index, model, query", "why_tests_cant": "unbounded", "anchors": ["pkg/spellchecker/spellchecker.go"]}
{"id": "C53", "title": "Sentence splitting does not depend on reading chunks", "statement": "The sentences retrieved from a reader are the maximal token runs between separators, regardless of the chunks in which the reader delivers bytes.", "quantifier": "every text, every chunking", "why_tests_cant": "chunkings are exponential in number", "anchors": ["pkg/lm/sentence_retriever.go"]}
{"id": "C54", "title": "In-memory dictionary holds every line", "statement": "OpenRAMDictionary returns all lines of the file, in order, or an error.", "quantifier": "every file content", "why_tests_cant": "a line longer than the scanner's buffer silently truncates the dictionary", "anchors": ["pkg/dictionary/helpers.go", "pkg/dictionary/memory_dictionary.go"]}
{"id": "C55", "title": "HTTP parameters are validated before reaching the library", "statement": "For every request parameter string the handlers either answer 400 or call the library with arguments on which it does not panic.", "quantifier": "every parameter string", "why_tests_cant": "unbounded strings, special values 0 and NaN", "anchors": ["internal/http/utils.go", "internal/spellchecker/api/predict_handler.go"]}
{"id": "C56", "title": "An index of another format version is refused", "statement": "Opening an index whose header carries a version string other than the current one fails; no posting list of it is ever served.", "quantifier": "every header content with every other version string, both directory kinds", "why_tests_cant": "ranges over all version strings and all (also inconsistent) header contents", "anchors": ["pkg/index/index_reader.go:Read", "pkg/index/indexer_writer.go:IndexVersion"]}
{"id": "C57", "title": "Floating point rounding loses no document", "statement": "Computed in float64, MinY/MaxY/Threshold never exclude a document whose similarity is >= alpha.", "quantifier": "every float64 alpha in (0,1], every a,b,o", "why_tests_cant": "rounding errors appear only for sporadic combinations of alpha and cardinalities", "anchors": ["pkg/metric/jaccard.go", "pkg/metric/dice.go", "pkg/metric/cosine.go", "pkg/metric/overlap.go"]}
{"id": "C58", "title": "Concurrent service calls do not race on the dictionary maps", "statement": "Whenever one service call is about to write the index or dictionary map, no other concurrent call is about to read or write it.", "quantifier": "every number of concurrent AddIndex, Suggest, Autocomplete and GetDictionaries calls and every interleaving", "why_tests_cant": "a race detector sees only the schedules it ran; the unlocked reader collides only in rare interleavings", "anchors": ["pkg/suggest/service.go:AddIndex", "pkg/suggest/service.go:GetDictionaries"]}
{"id": "C59", "title": "Service calls never deadlock", "statement": "While some service call has not returned, some service call can take a step.", "quantifier": "every set of concurrent calls and every reachable interleaving", "why_tests_cant": "ranges over all schedules", "anchors": ["pkg/suggest/service.go"]}
{"id": "C60", "title": "Answers carry the value of the dictionary that was indexed", "statement": "A successful Suggest or Autocomplete answer is, in order, the candidates found on one published index, each with the value the dictionary published together with that index has for its key; an unknown dictionary name gives an error.", "quantifier": "every schedule of rebuilds and queries", "why_tests_cant": "a mix-up of two builds shows only in particular interleavings", "anchors": ["pkg/suggest/service.go:Suggest", "pkg/suggest/service.go:Autocomplete"]}
{"id": "C61", "title": "A sentence is scored by all its windows", "statement": "The score of a sentence is the sum of the model scores of all windows of `order` consecutive words of the sentence wrapped in start and end symbols; scoring never fails.", "quantifier": "every model read from count files, every sentence", "why_tests_cant": "unbounded sentences and models; sentences shorter than the window silently score 0", "anchors": ["pkg/lm/language_model.go:ScoreWordIDs", "pkg/lm/generator.go"]}
{"id": "C62", "title": "A corpus goes through the n-gram files unchanged", "statement": "Counting a corpus, writing the n-gram files and reading them back yields a model whose count of every n-gram up to the order is its number of occurrences in the corpus (each nonempty sentence between the start and the end symbol), whose size is the number of tokens, and which scores every n-gram seen in the corpus with its relative frequency.", "quantifier": "every corpus within the size limits, every schedule of the counting goroutines, every map iteration order, every way the files are delivered, every numbering of the words", "why_tests_cant": "goroutine schedules, map orders, read chunks and corpora are unbounded", "anchors": ["pkg/lm/ngram_builder.go", "pkg/lm/ngram_writer.go", "pkg/lm/ngram_reader.go"]}
{"id": "C63", "title": "A stored language model is the model of its corpus", "statement": "StoreBinaryLMFromGoogleFormat on the files of a corpus followed by RetrieveLMFromBinary gives a language model that numbers exactly the words of the corpus by descending frequency, answers UnknownWordID for every other string, and has the counts of the corpus.", "quantifier": "every corpus within the limits, every delivery of the files, every result of the sort in the hash table", "why_tests_cant": "unbounded corpora and schedules", "anchors": ["pkg/lm/binary.go StoreBinaryLMFromGoogleFormat RetrieveLMFromBinary buildDictionary"]}
{"id": "C64", "title": "Building the hash table ends", "statement": "mph.Build returns for every dictionary of distinct words.", "quantifier": "every set of distinct words", "why_tests_cant": "non-termination on particular word sets cannot be observed by finitely many tests", "anchors": ["pkg/mph/mph.go Build hash"]}
{"id": "C65", "title": "Predict answers every query", "statement": "For every query, topK and similarity, Spellchecker.Predict returns, under every schedule of its goroutines; it neither panics nor blocks nor runs for ever.", "quantifier": "every query, index, model, topK, similarity, schedule", "why_tests_cant": "depends on the length of the last word relative to all indexed words, on special values and on schedules", "anchors": ["pkg/spellchecker/spellchecker.go", "pkg/suggest/suggester.go", "pkg/suggest/topk.go"]}
{"id": "C66", "title": "Float64 fuzzy search is exact up to a relative margin of 2^-48", "statement": "Computed in float64 as the program does: Suggest(query, alpha, metric, k) returns at most k distinct documents in the order of decreasing true similarity, with scores within 2^-50 of it and similarity at least alpha(1 - 2^-48); a document with similarity at least alpha(1 + 2^-48) is returned unless k documents are returned that are all at least as similar; under every schedule.", "quantifier": "every index (documents with at most 32767 terms), query (at most 65535 terms), metric (Jaccard, Dice, Cosine, Overlap), alpha in [2^-20, 1], k >= 1 and schedule", "why_tests_cant": "rounding errors of thresholds, bounds and scores interact with the concurrently raised bound; cardinalities, alphas and schedules are unbounded", "anchors": ["pkg/suggest/suggester.go", "pkg/metric", "pkg/suggest/scorer.go"]}
{"id": "C67", "title": "Fuzzy search for words, from the dictionary to the answer", "statement": "A dictionary is indexed (in RAM by the service, or on disc by the indexer and then loaded). The answer of the suggest service to a query lists words of the dictionary, each position at most once and at most topK, by decreasing similarity of the sets of n-grams of query and word (lower-cased, wrapped, characters outside the alphabet replaced by the pad), with scores within 2^-50 of the similarity and similarity at least alpha up to a relative 2^-48; and a word whose similarity exceeds alpha by that margin is listed unless topK words are listed that are all at least as similar. The service does answer.", "quantifier": "every dictionary, description (n-gram size 1-8, alphabet, pad, wraps), query, alpha, metric, topK, map order, buffering and schedule", "why_tests_cant": "dictionaries, configurations, queries and schedules are unbounded, and the claim crosses tokenizer, codec, index files, merge, float bounds and goroutines", "anchors": ["pkg/suggest/service.go", "pkg/suggest/indexer.go", "pkg/suggest/ngram_index_builder.go", "pkg/suggest/config.go", "pkg/analysis"]}
{"id": "C68", "title": "Autocomplete for words, from the dictionary to the answer", "statement": "Autocomplete(prefix, limit) of the service returns the first limit words, in the order of the dictionary, among those that contain all n-grams of the prefix; every word that starts with the prefix typed is among those, if the prefix with what is wrapped before it has at least n characters.", "quantifier": "every dictionary, description, prefix, limit, map order, buffering and schedule", "why_tests_cant": "unbounded dictionaries, prefixes, configurations and schedules", "anchors": ["pkg/suggest/service.go Autocomplete", "pkg/suggest/autocomplete.go", "pkg/suggest/tokenizer.go"]}
{"id": "C69", "title": "Interrupted re-indexing does not corrupt answers", "statement": "Wherever the indexer is interrupted while it re-indexes a changed dictionary on disc, a service that then loads the description either refuses or answers from one dictionary (the old or the new one).", "quantifier": "every old and new dictionary, interruption point and query", "why_tests_cant": "crash points and dictionary pairs are unbounded", "anchors": ["cmd/suggest/cmd/indexer.go indexJob", "pkg/dictionary/helpers.go BuildCDBDictionary", "pkg/suggest/service.go AddOnDiscIndex"]}
{"id": "C70", "title": "Reloading the indexes of a running server", "statement": "A reload (SIGHUP or POST /internal/reindex/) that reports success makes the server serve the current content of every configured index; one that reports an error leaves the server as it was; no served index ever disappears, and what is served under a name is always one complete version of it.", "quantifier": "every configuration, content of the files, number of overlapping reloads and interleaving with changes of the files", "why_tests_cant": "interleavings of reloads, signals and file changes are unbounded", "anchors": ["internal/suggest/api/app.go configureService Run listenToSystemSignals", "internal/suggest/api/reindex_handler.go"]}
{"id": "C71", "title": "The trained spell checker, from the corpus to the corrections", "statement": "Train a model on a corpus of sentences, store it and start the spell checker with it: it starts; Predict then offers only words of the training vocabulary that complete or resemble the last word typed, no word twice, at most topK of them, ordered by how often they followed the preceding words in the corpus (with the model's back-off), and leaves none of those out that is scored better than one offered.", "quantifier": "every corpus, order of the model, index description, query, topK, similarity, map order, sort result, buffering and schedule", "why_tests_cant": "corpora, queries and schedules are unbounded; the claim spans the n-gram counter, the files, the stored model, the index and the search", "anchors": ["cmd/language-model/cmd", "pkg/lm/generator.go", "pkg/lm/ngram_writer.go", "pkg/lm/binary.go", "pkg/spellchecker/spellchecker.go Predict", "internal/spellchecker/dep"]}
{"id": "C72", "title": "Sentence markers are not offered as corrections", "statement": "Every correction offered is a word that occurs in a sentence of the training corpus; the markers for the start and end of a sentence are never offered.", "quantifier": "every corpus, description, query, topK, similarity and schedule", "why_tests_cant": "queries and alphabets are unbounded", "anchors": ["pkg/lm/indexer.go", "pkg/spellchecker/spellchecker.go Predict", "pkg/lm/ngram_builder.go"]}
{"id": "C73", "title": "The signal to reload is neither lost nor fatal", "statement": "A SIGHUP sent to the process whose id is in the PID file makes the running server read its index descriptions again at some time after the signal was sent, whatever requests, reloads and signals happen at the same time; it never ends the process.", "quantifier": "every interleaving of start-up, signals, reloads, requests and changes of the files", "why_tests_cant": "the interleavings are unbounded and the losing ones are rare", "anchors": ["internal/suggest/api/app.go Run", "internal/suggest/api/app.go listenToSystemSignals", "internal/suggest/api/app.go writePIDFile", "cmd/suggest/cmd/indexer.go tryToSendReindexSignal"]}
{"id": "C74", "title": "Orderly shutdown", "statement": "After SIGTERM or SIGINT the server accepts no further requests, answers the requests in progress, and ends with status 0.", "quantifier": "every interleaving of start-up, signals, reloads and requests", "why_tests_cant": "the interleavings are unbounded; whether a request in progress is cut depends on the schedule", "anchors": ["internal/http/http_server.go Run", "internal/suggest/api/app.go Run", "internal/suggest/api/app.go listenToSystemSignals"]}
{"id": "C75", "title": "The indexer command", "statement": "The command `suggest indexer` ends; if it succeeds, a service that loads a chosen DISC description afterwards publishes exactly the lines of its source as dictionary and the index of these lines; files of other descriptions are never touched; if it fails, the description it failed at can still be loaded as it was before.", "quantifier": "every list of descriptions, source contents, chunking of reads, --dict flag, earlier disc contents", "why_tests_cant": "sources, descriptions and failures are unbounded", "anchors": ["cmd/suggest/cmd/indexer.go", "pkg/dictionary/helpers.go BuildCDBDictionary", "pkg/dictionary/cdb_dictionary.go", "pkg/suggest/indexer.go"]}
{"id": "C76", "title": "From the source file to the answers, with either driver", "statement": "Whether a description uses the RAM driver or the DISC driver (after a successful run of the indexer), the service answers fuzzy searches and completions with the lines of the source file: the similar lines in order of similarity, and exactly the first lines that contain the n-grams of the prefix; both drivers give the same completions.", "quantifier": "every file, chunking of reads, description, query, limit, schedule and map order", "why_tests_cant": "the claim spans scanner, dictionary, tokenizer, index writer and reader, search, and holds for unbounded files and queries", "anchors": ["pkg/suggest/service.go", "pkg/suggest/ngram_index_builder.go", "pkg/dictionary/helpers.go", "cmd/suggest/cmd/indexer.go", "pkg/suggest/suggester.go", "pkg/suggest/autocomplete.go"]}
{"id": "C77", "title": "Re-indexing does not disturb a running server", "statement": "While and after the indexer rewrites the files of an index that a server serves, the server goes on answering from the index it has opened, until it reloads.", "quantifier": "every old and new content of the files, every position of the posting lists, every moment of the indexer's run", "why_tests_cant": "it depends on the moment a search reads mapped memory relative to the indexer's writes, and on file sizes in pages", "anchors": ["pkg/utils/mmap_reader.go NewMMapReader", "pkg/store/fs_directory.go OpenInput CreateOutput", "pkg/store/byte_input.go Slice", "pkg/index/indexer_writer.go Commit"]}
{"id": "C78", "title": "A reload does not disturb the requests in progress", "statement": "The memory a search reads stays mapped until the search is over, whatever reloads and garbage collections happen in the meantime; the published index always is mapped.", "quantifier": "every interleaving of searches, reloads and collections", "why_tests_cant": "the collector runs finalizers at arbitrary moments; the schedules are unbounded", "anchors": ["pkg/store/fs_directory.go OpenInput", "pkg/suggest/autocomplete.go Autocomplete", "pkg/suggest/suggester.go Suggest", "pkg/index/searcher.go Search", "pkg/suggest/service.go"]}
{"id": "C79", "title": "From the bytes of a text to the n-gram files", "statement": "The command ngram-count ends; the file of order k has exactly one line for every sequence of k words that occurs in the sentences of the source text (each put between start and end symbol), with the number of its occurrences, and no other line; what build-lm makes of these files is a model of the sentences of the text.", "quantifier": "every source file (any bytes), every way it is delivered, every configuration of alphabets, schedule and map iteration order", "why_tests_cant": "texts, chunkings and schedules are unbounded; the claim spans scanner, tokenizer, trie and writer", "anchors": ["cmd/language-model/cmd/ngram-count.go", "pkg/lm/sentence_retriever.go", "pkg/lm/tokenizer.go", "pkg/analysis/word_tokenizer.go", "pkg/lm/ngram_builder.go", "pkg/lm/ngram_writer.go"]}
{"id": "C80", "title": "The stemmer filters", "statement": "A stemmer filter returns, in order, the stem of every token that is not a stop word and nothing else; what becomes of a token does not depend on the other tokens, although one stemming environment is reused; with the built-in stemmers these are the published Snowball stems.", "quantifier": "every list of tokens, stemmer and stop word list", "why_tests_cant": "token lists are unbounded and the environment carries state from token to token", "anchors": ["pkg/analysis/stemmer_filter.go", "pkg/analysis/en/stop_words.go", "pkg/analysis/ru/stop_words.go"]}
{"id": "C81", "title": "The Russian stemmer", "statement": "The generated stemmer for Russian ends on every word and computes the published Snowball algorithm; the stem is a beginning of the word (ё read as е) that contains everything up to the first vowel and is never empty; the suffix tables are sorted and linked as the library's binary search needs.", "quantifier": "every word", "why_tests_cant": "words are unbounded; the generated code with cursors, labels and tables has thousands of combinations of endings", "anchors": ["pkg/analysis/ru/algorithm.go Stem"]}
{"id": "C82", "title": "The English stemmer", "statement": "The generated stemmer for English ends on every word and computes the published Porter2 algorithm; a stem is never longer than the word and never empty (except for exactly two strings of apostrophes and s); the tables are sorted and linked as the library's binary search needs.", "quantifier": "every word", "why_tests_cant": "words are unbounded; the generated code with cursors, labels and tables has thousands of combinations of endings", "anchors": ["pkg/analysis/en/algorithm.go Stem"]}
{"id": "C83", "title": "What the success of `suggest indexer` says about a running server", "statement": "When `suggest indexer --host URL` has written the files and reports success, the server behind the URL serves, under every configured name, exactly what is in the files now - and keeps doing so until the files change, whatever other reloads run; a reload that fails is reported as an error whatever its text; when no description is chosen nothing is sent.", "quantifier": "all interleavings of the command, of any number of reloads in the server and of other processes; all configurations and error texts", "why_tests_cant": "it depends on the interleaving of the command with reloads already running in the server and with signals", "anchors": ["cmd/suggest/cmd/indexer.go indexCmd, tryToSendReindexSignal, tryToSendReindexRequest", "internal/suggest/api/reindex_handler.go handle", "internal/suggest/api/app.go"]}
{"id": "C84", "title": "Concurrent searches do not influence each other through the shared pools", "statement": "All searches of a process share pools of posting-list objects and merge buffers. However searches are interleaved and whatever objects the pools hand out or drop: a search that has ended returned exactly what it returns when it runs alone, whatever earlier searches left in the objects; no goroutine accesses an object another one uses or that is in a pool (no data race); no object is handed out twice; every search can run to its end and makes only finitely many steps.", "quantifier": "all sets of concurrent searches on any dictionaries, all interleavings of single accesses, all choices of the pools and of the garbage collector, all growth of arrays and all results of an unstable sort", "why_tests_cant": "depends on the interleaving and on which used object the pool happens to hand out", "anchors": ["pkg/index/codec.go resolvePostingList, releasePostingList, the pools", "pkg/index/searcher.go Search", "pkg/index/posting_list.go Init, skipping_posting_list.go Init, bitmap_posting_list.go Init", "pkg/merger/cp_merge.go Merge, bufPool", "pkg/merger/list_intersector.go Intersect"]}
{"id": "C85", "title": "A failing write is reported, and reported success means the right bytes are in the files", "statement": "When an index is committed, n-gram files are written or a binary language model is stored, and any system call on the way fails (no space, I/O error, with any part of the bytes written): the operation returns an error; it returns an error only if a call failed; and when it returns none, the files contain exactly the bytes they should (so the index opens and shows exactly the documents, the model loads as stored), and no other file has changed.", "quantifier": "all documents, tries and models, all initial contents of the disk, all devices (any subset of the system calls failing with any error after any number of bytes), all ways in which the libraries divide their output into writes", "why_tests_cant": "the failing call can be any of unboundedly many, and the buffer delays the error to a later call or to Close; a missing check shows only for certain sizes", "anchors": ["pkg/store/fs_directory.go CreateOutput", "pkg/store/byte_output.go Close", "pkg/index/indexer_writer.go Commit, writeHeader", "pkg/compression/varint.go varIntEncode", "pkg/compression/skipping.go Encode", "pkg/lm/ngram_writer.go Write", "pkg/lm/binary.go StoreBinaryLMFromGoogleFormat", "pkg/lm/ngram_model.go Store", "pkg/lm/packed_array.go Store", "pkg/mph/mph.go Store"]}
{"id": "C86", "title": "Damaged files lead to errors, not to crashes or wrong answers", "statement": "Whatever bytes the files of a dictionary contain: opening it gives an index or an error; a fuzzy search or a completion on the opened index ends under every schedule, without panic, deadlock or endless loop, with an answer or an error value. When the document list or the header was only cut short (full disk, interrupted copy), opening fails or every answer is exactly the one of the complete dictionary, or an error. A binary language model file that was cut short is refused.", "quantifier": "all contents of the files, all positions of a cut, all queries, metrics, limits and thresholds, all schedules of the goroutines", "why_tests_cant": "ranges over all byte strings; a fuzzer can find crashes but cannot exclude them or an endless loop", "anchors": ["pkg/index/index_reader.go Read", "pkg/index/inverted_index.go Get", "pkg/index/posting_list.go", "pkg/index/skipping_posting_list.go LowerBound", "pkg/index/bitmap_posting_list.go", "pkg/merger/cp_merge.go Merge", "pkg/suggest/suggester.go Suggest", "pkg/suggest/autocomplete.go Autocomplete", "pkg/store/byte_input.go", "pkg/lm/ngram_model.go Load", "pkg/lm/packed_array.go Load", "pkg/mph/mph.go Load"]}
{"id": "C87", "title": "The frequency trie of variable-length grams", "statement": "After adding any grams, the node found for a text has as its frequency the number of added grams that begin with it and, if it has at least qMin characters, a marker counting the grams equal to it; a text no gram begins with is reported as absent. Walking visits each such text exactly once. Pruning with any threshold, any number of times, adds no node and changes no frequency; afterwards each marker counts exactly the grams of which it is the longest beginning that is left, every gram long enough has such a beginning, the sum of the markers is unchanged, no marker grows beyond the threshold, nothing more could be merged, and pruning again changes nothing. The result does not depend on the order of Go's maps.", "quantifier": "all lists of grams, all qMin, all thresholds and sequences of prunings, all iteration orders of the maps and all outcomes of the unstable sort", "why_tests_cant": "map order is random and the trees are unbounded; a test sees one order on one tree", "anchors": ["pkg/vgram/frequency_trie.go Find", "pkg/vgram/frequency_trie.go Add", "pkg/vgram/frequency_trie.go Walk", "pkg/vgram/frequency_trie.go Prune"]}
{"id": "C88", "title": "From the HTTP request to the JSON answer", "statement": "A GET of /suggest/<dictionary>/<query>/?metric=..&topK=..&similarity=.. or of /autocomplete/<dictionary>/<prefix>/?topK=.., in whatever way the client percent-encodes the parts, searches exactly that dictionary for exactly that query with exactly those parameters, and the body of the answer is a JSON text whose items, in order, are the scores and the words of the search; parameters that are not accepted give 400, an unpublished dictionary never gives words, and /dict/list/ lists exactly the published names.", "quantifier": "all dictionaries, queries, encodings and parameters, all words (arbitrary bytes), all schedules of the search", "why_tests_cant": "encodings, escapes and words are unbounded; tests use a few ASCII examples", "anchors": ["internal/suggest/api/app.go Run", "internal/suggest/api/suggest_handler.go handle", "internal/suggest/api/autocomplete_handler.go handle", "internal/suggest/api/dict_handler.go handle", "pkg/suggest/service.go ResultItem"]}
{"id": "C89", "title": "Which files a configuration names", "statement": "Relative source and output paths of a description or language model configuration are looked up in the folder of the configuration file, whatever the working folder of the process and however the path of the configuration file is written; absolute ones are taken as they are; the files of an index or model lie in its output folder under its name, and two configurations that differ in name or output folder share no file.", "quantifier": "all paths of configuration files, all source/output paths and names, all working folders", "why_tests_cant": "paths and names are unbounded strings; tests use one testdata folder", "anchors": ["pkg/suggest/config.go ReadConfigs, GetSourcePath, GetIndexPath, GetDictionaryFile, GetWriterConfig", "pkg/lm/config.go ReadConfig, GetOutputPath, GetDictionaryPath, GetBinaryPath", "pkg/store/fs_directory.go CreateOutput, OpenInput", "pkg/lm/ngram_writer.go fileFormat"]}
{"id": "C90", "title": "Corrections over HTTP, from the text file to the JSON answer", "statement": "A spell checker server whose model was trained on a text answers GET /predict/<query>/?topK=…&similarity=…, however the query is percent-encoded, with a JSON list of words: for a query of several words, known words of the text that complete the last word or resemble it, ordered by how often they follow the preceding words in the text; for a query of one word the most frequent completions, then the similar words. Wrong parameters give status 400, a query containing '/' cannot be asked.", "quantifier": "all texts, chunks of reading, schedules, iteration orders of maps, index descriptions, queries and their encodings, parameters", "why_tests_cant": "texts, queries, encodings and schedules are unbounded", "anchors": ["internal/spellchecker/api/app.go Run", "internal/spellchecker/api/predict_handler.go handle", "internal/spellchecker/dep/spellchecker.go BuildSpellChecker", "pkg/spellchecker/spellchecker.go Predict", "cmd/language-model/cmd/ngram-count.go"]}
{"id": "C91", "title": "Language model calls on shared memory", "statement": "A loaded language model may be used by any number of goroutines: ScoreSentence, ScoreWordIDs, Next and ScoreNext (also on the same scorer) return what they return alone, never race, never panic and never change a slice of the caller.", "quantifier": "all models, calls, slices, schedules (interleavings of single memory accesses) and growth policies of append", "why_tests_cant": "interleavings are unbounded, and whether append writes in place depends on the capacity of the slice", "anchors": ["pkg/lm/language_model.go ScoreWordIDs wrapSentence leftWrapSentence Next MapIntoListOfWordIDs", "pkg/lm/ngram_model.go Score Next", "pkg/lm/scorer_next.go ScoreNext", "pkg/lm/generator.go splitIntoNGrams"]}
{"id": "C92", "title": "Reading back a dictionary on disc", "statement": "ReadAt on a mapped file returns the bytes of the file at the offset (io.EOF exactly if there are fewer than asked for) and refuses bad offsets and closed files; Iterate on a cdb dictionary passes every key and value to the callback, in order, until the callback reports an error, so that a dictionary built from a source is walked through line by line.", "quantifier": "all file contents, offsets, buffer sizes, records, callbacks", "why_tests_cant": "contents and records are unbounded; empty records are a corner case", "anchors": ["pkg/utils/mmap_reader.go ReadAt Close Bytes", "pkg/dictionary/cdb_dictionary.go Iterate", "pkg/dictionary/helpers.go BuildCDBDictionary", "cmd/suggest/cmd/indexer.go indexJob"]}
{"id": "C93", "title": "The interactive commands answer every line, in order", "statement": "`suggest eval`, `lm eval` and `spellchecker eval` print, for every line of standard input that asks something, in the order of the lines, the right answer to it, followed by a prompt, and a prompt alone for the other lines: `suggest eval` the best matches (cosine similarity) of the line without the white space at its ends in the last dictionary of the given name, `lm eval` the words of the line and their score by the numbers of occurrences in the corpus, `spellchecker eval` the corrections of the last word of the line. They end without an error exactly when all lines have been answered. An unknown dictionary is refused before the first prompt; with flags out of range no line is answered; a line of more than 64 KiB is reported as an error after the lines before it have been answered.", "quantifier": "all contents of standard input and all ways its bytes arrive, all dictionaries, configurations and corpora (within the limits of C67, C71 and C76), all flags, all schedules of the searches", "why_tests_cant": "standard input is any sequence of bytes in chunks of any sizes, with any Unicode white space; the answers depend on dictionaries and corpora of any size and on schedules", "anchors": ["cmd/suggest/cmd/eval.go: evalCmd, configureService", "cmd/language-model/cmd/eval.go: evalCmd", "cmd/spellchecker/cmd/eval.go: evalCmd", "pkg/suggest/search.go: NewSearchConfig"]}
{"id": "C94", "title": "One client cannot take the server away from the others", "statement": "Whatever requests clients send to the suggest server or the spell checker server, in any number and any order, the process keeps running: a request that is refused, fails, panics or waits for ever does so alone; every other request is untouched by it, can still be answered, and its answer is an answer to that very request for something the service had published.", "quantifier": "all sets of clients and requests (methods and targets), all interleavings of requests, searches and reloads, all published dictionaries", "why_tests_cant": "requests are arbitrary byte strings of any length and interleave in any way with each other and with reloads", "anchors": ["internal/http/http_server.go: Run", "internal/suggest/api/app.go: Run", "internal/suggest/api/suggest_handler.go: handle", "internal/suggest/api/dict_handler.go: handle", "internal/spellchecker/api/app.go: Run", "internal/spellchecker/api/predict_handler.go: handle", "pkg/suggest/suggester.go: Suggest", "pkg/suggest/autocomplete.go: Autocomplete", "pkg/suggest/service.go: GetDictionaries", "pkg/merger/cp_merge.go: Merge"]}
{"id": "C95", "title": "A configuration file means what it says", "statement": "Reading a configuration file of the indexes or of a language model gives exactly the descriptions written in it, in order, with relative paths bound to the folder of the file, however the JSON is written (white space, escapes, order of members, unknown members, case of keys, missing members are empty); exactly the well-formed and well-typed JSON texts are accepted, and a file that was written only in part is refused or, if only white space is missing, gives the same descriptions.", "quantifier": "all texts and byte sequences as configuration files, all their beginnings, all paths", "why_tests_cant": "files are arbitrary bytes; every JSON spelling of every description and every truncation point has to be covered", "anchors": ["pkg/suggest/config.go: ReadConfigs, IndexDescription", "pkg/lm/config.go: ReadConfig, Config", "pkg/suggest/service.go: AddIndexByDescription", "cmd/suggest/cmd/indexer.go: indexJob"]}
{"id": "C96", "title": "A deployed dictionary answers with the lines of its source file", "statement": "For a configuration file in any JSON spelling and any source files: if every description with the driver DISC has been indexed with the indexer command (whatever was on the disc before) or has the driver RAM, the service starts, serves exactly the names in the configuration, and a fuzzy search or a completion over HTTP under such a name answers with the lines of the source file of the last description of that name - the most similar ones for a search, the first ones that contain every n-gram of the prefix for a completion - tokenized as that description says (n-gram size, alphabet, pad, wrap). A configuration that is not accepted or a description that cannot be loaded keeps the service from starting.", "quantifier": "all configuration texts, source files, earlier disc contents, names, queries, encodings of requests, map orders", "why_tests_cant": "the claim spans two programs and the files between them, over every configuration and every content of the files", "anchors": ["cmd/suggest/cmd/indexer.go: indexJob", "internal/suggest/api/app.go: configureService", "pkg/suggest/service.go: AddIndexByDescription, AddRunTimeIndex, AddOnDiscIndex", "pkg/suggest/config.go: ReadConfigs, GetIndexPath, GetSourcePath", "internal/suggest/api/handlers.go"]}
{"id": "C97", "title": "A deployed language model corrects with the text it was counted from", "statement": "For a text, a configuration file in any JSON spelling and any history of commands: if the command lm ngram-count succeeds for the configuration, then lm build-lm succeeds for it, and in between and afterwards anything happens that leaves the files of the model alone (commands for other models in other folders, failing and interrupted ones included, changes of the text), the spell checker started with that configuration answers requests over HTTP with the corrections that the words and counts of the text give, as the text was when it was counted. The command lm build-lm can only succeed if the text has a sentence of at least order - 2 words; two models in one output folder take each other's n-grams.", "quantifier": "all texts, configuration texts, histories of commands and changes of files, queries, encodings of requests, map orders", "why_tests_cant": "the claim spans three programs, the files between them and every interleaving of their runs", "anchors": ["cmd/language-model/cmd/ngram-count.go", "cmd/language-model/cmd/build-lm.go", "pkg/lm/binary.go: StoreBinaryLMFromGoogleFormat, RetrieveLMFromBinary, buildDictionary", "pkg/lm/ngram_writer.go: Write", "pkg/lm/ngram_reader.go: Read", "pkg/lm/config.go", "internal/spellchecker/dep/spellchecker.go: BuildSpellChecker", "internal/spellchecker/api/app.go: Run", "pkg/store/fs_directory.go: OpenInput", "pkg/utils/mmap_reader.go"]}
