{
 "C01": [
  "proved",
  "Hash is a parameter; all orders, all parts."
 ],
 "C02": [
  "proved",
  "Round trip in both directions, shape of the text, injectivity."
 ],
 "C03": [
  "proved",
  "Comparison is numeric comparison of the 256-bit ids."
 ],
 "C04": [
  "partial",
  "Symmetric, zero on the diagonal, bounded by half; the claim that distance zero identifies ids is false of the code (C04_identity_refuted), exact zero set in C04_zero_iff."
 ],
 "C05": [
  "proved",
  "Interval test agrees with the ring definition for all ids, with and without bounds."
 ],
 "C06": [
  "proved",
  "Row index is the common hex prefix length; slot always inside the table for different ids."
 ],
 "C07": [
  "partial",
  "Proved for every memory size from 21 bytes to 4 GB, every sequence of np_set_data calls with regular entries (Spec.Regular: the entries whose size the library computes correctly) and fewer than 65536 keys: calls return and a key reads as the last value accepted. Refuted without the bound on keys: with 65536 keys np_get_data for an absent key never returns. Irregular entries: see C08/C09."
 ],
 "C08": [
  "partial",
  "Proved for regular entries: accepted iff the entries then in the block fit. Refuted: a key of 24 characters, 24 or more than 65535 bytes of data, or the number 24 are never accepted; -256 and -65536 fail an assertion."
 ],
 "C09": [
  "partial",
  "Proved for regular entries and for every entry with a new key. Refuted: replacing a value by one of 24 bytes fails and destroys the block."
 ],
 "C10": [
  "partial",
  "No access outside the block and no endless loop for any key and value except -2147483648 (undefined negation, refuted) on blocks built with regular entries; the recorded used size is exact."
 ],
 "C100": [
  "partial",
  "Proved: a newly stored identity has a token file that loads. Refuted for every store that is not empty: saving the store fails because the file is one byte or more too small, and only one fingerprint is put into it."
 ],
 "C101": [
  "partial",
  "Proved: an immediate repeat is never sent; nor a later one as long as no cell was pruned more than three times in between. Refuted: one other part in between can be enough."
 ],
 "C102": [
  "partial",
  "Proved: the first part is sent; a part is held back only if all its cells were set by earlier ones. Refuted for every hash function: a part with a chosen audience shadows any other part."
 ],
 "C103": [
  "partial",
  "Proved: only valid tokens of the right type are handled; a valid one is handled unless all cells of its attribute signature were set before. Refuted: any token that carries a copy of the attribute signature makes the node ignore the valid one."
 ],
 "C104": [
  "proved",
  "For every bound but 0: in range, and every value has the same number of preimages."
 ],
 "C105": [
  "partial",
  "Packets with another subject, and handshakes with well-formed fields, never fault; refuted by packets that claim more parts, that carry no token, and by some token fields."
 ],
 "C106": [
  "partial",
  "Proved for bodies with the expected fields; refuted by a missing field, a number in place of a text, a subject that is no id, and messages of each kind."
 ],
 "C107": [
  "proved",
  ""
 ],
 "C108": [
  "partial",
  "Proved for bodies that are a complete map; refuted: a body that is cut off goes on in the 124 bytes behind it."
 ],
 "C109": [
  "partial",
  "The trip through encryption, packets in any order and reading is proved, and that whatever is delivered is authentic; the counter in the mac must not overflow, and a forged message with the same uuid that comes first makes the genuine one be dropped. The encryption is a parameter with the laws of an authenticated cipher."
 ],
 "C11": [
  "partial",
  "Proved for blocks built with regular entries and fewer than 65536 keys; the callback must not change the block."
 ],
 "C110": [
  "partial",
  "Only initial sessions can change sessions, and only those the body names; refuted: they can name those of other senders."
 ],
 "C111": [
  "partial",
  "Proved for histories whose keys are pairwise apart (behind a nibble in which they differ they agree in at most one nibble) and that do not insert after emptying the trie; for one-byte keys without the first condition. False in general: five insertions lose the first key, and seven insertions fail an assertion or enter an unwritten slot."
 ],
 "C112": [
  "partial",
  "Proved under the conditions of C111. False in general: after the last key of a branch is deleted the next insertion reads freed memory and freeing the trie frees twice; the slot handed out can lie in freed memory."
 ],
 "C113": [
  "partial",
  "Proved for keys that are pairwise apart and a combination that succeeds. False in general: a union loses a key of the first trie."
 ],
 "C114": [
  "partial",
  "Proved for keys that are pairwise apart: common keys are kept with the combination of their values and no keys appear, if the work ends. False in general: keys that only the first trie has are kept, and disjoint tries of different depth leave a slot that was never written."
 ],
 "C115": [
  "partial",
  "Proved for words of at least 256 that are pairwise apart: the check is exact on words. False in general: a word below 256 divides by zero, and a key of eight words is added and not found."
 ],
 "C116": [
  "proved",
  "Multi-hash mode; the hash functions are parameters."
 ],
 "C117": [
  "partial",
  "Proved for every entry but the first of the upper half; refuted there for every hash and size, and for signatures of different size."
 ],
 "C118": [
  "partial",
  "Symmetry proved for equal sizes (any sizes in the flexible mode), range, self similarity and equal sets proved; refuted for empty signatures of the single modes (0/0) and for different sizes (read out of bounds)."
 ],
 "C119": [
  "partial",
  "Proved for the fixed mode up to half of the size; refuted beyond, and for a growing flexible signature (uninitialised memory, changed entry of an earlier element)."
 ],
 "C12": [
  "partial",
  "Proved for blocks built with regular entries and fewer than 65536 keys in both blocks; source and destination do not overlap."
 ],
 "C120": [
  "partial",
  "Proved for 256 entries, texts of up to 65536 words and elements below 512 bytes; refuted for 512 entries (abort for every text) and for longer words (stack overflow)."
 ],
 "C121": [
  "partial",
  "Proved for all texts of up to 65536 words with elements below 512 bytes; longer texts wrap a 16 bit counter and are not covered."
 ],
 "C122": [
  "partial",
  "Proved for all texts in which nothing looks encoded and all encodings of them, if the byte behind the text is zero; refuted for other texts (decoded twice, or not, depending on what follows)."
 ],
 "C123": [
  "partial",
  "Proved for all arguments if the byte behind the text, which the code does not set, is zero; refuted for every argument and every other value of that byte."
 ],
 "C124": [
  "proved",
  "For all contents of the tables."
 ],
 "C125": [
  "partial",
  "Proved in full for messages and forwarded messages, of any strength. For discovery messages only for trails of at least 52/256; refuted for weaker ones."
 ],
 "C126": [
  "partial",
  "Proved if at most two elements (discovery: one) list the previous hop. Refuted for more, with a history of single announcements."
 ],
 "C127": [
  "partial",
  "The number of copies is at most the number of elements that list the peer. Refuted for several elements."
 ],
 "C128": [
  "partial",
  "Proved for neighbours and for trails of at least 90/256 with a receiver. Refuted for weaker trails, known nodes outside of the tables, trails without receivers (does not return) and ids without a node (crash)."
 ],
 "C129": [
  "partial",
  "Proved for directions other than the own id. Refuted for the own id (abort) and for announcements along a trail (sent to a second peer)."
 ],
 "C13": [
  "proved",
  "Every sequence, bucket count 1..65535 and hash function; keys are buffers of at least 32 bytes, of which the code compares 32."
 ],
 "C130": [
  "partial",
  "Proved for announcements that start at the node. Refuted for those passed on (fixed direction, missing token) and for the end of the way."
 ],
 "C131": [
  "partial",
  "Holds for the empty registry only; refuted for every registry with a metric: the bound is reduced by the position instead of the increment, wraps, and the last write is behind the memory."
 ],
 "C132": [
  "partial",
  "Proved if the bound for each piece suffices; refuted: for a name of 20 characters the time is cut."
 ],
 "C133": [
  "partial",
  "Never too short for values of at most 20 characters; refuted: bytes of old memory are sent behind the text, and a value of 10^13 does not fit."
 ],
 "C134": [
  "partial",
  "Proved for registering and rendering; refuted: asking for the size never gives the lock back."
 ],
 "C135": [
  "partial",
  "Exact up to 2^24, in any order; refuted beyond: the counter stops."
 ],
 "C136": [
  "partial",
  "Proved after the first report; refuted for the first one, which is related to the time since the epoch."
 ],
 "C137": [
  "partial",
  "Proved unless a rate carries a label of that name the metric does not; refuted for the name of the interval label."
 ],
 "C138": [
  "partial",
  "Proved for every bound but zero, with termination; refuted for zero (division)."
 ],
 "C139": [
  "proved",
  "Exact number of states for each result; the rejected first draws are named."
 ],
 "C14": [
  "partial",
  "Conservation, ordering, refusal, selection and aborts proved for all interleavings of submitters and workers (capacity 511..32768). Not early only if selections do not overlap; overlapping selections run a job early (C14_not_early_refuted) and the configured size is not honoured (C14_configured_size_refuted)."
 ],
 "C140": [
  "proved",
  "Full period from every seed, and equidistribution of the outputs."
 ],
 "C141": [
  "partial",
  "Proved up to the highest bit of the second seed, which is lost."
 ],
 "C142": [
  "partial",
  "At least the minimum; refuted: up to the sum of both, from every seed."
 ],
 "C143": [
  "proved",
  "Rational arithmetic instead of float; rates are multiples of 1/31."
 ],
 "C144": [
  "partial",
  "Proved after 31 outcomes if an update came first and times are positive, and for a first answer before any update. Refuted: with an update before the first answer the made-up 0.01 s stays in the mean (2 s read as 0.074 s); a first answer without delay gives a negative latency."
 ],
 "C145": [
  "proved",
  "From any state: 24 failures suffice; new peer: exactly 15; answering peers stay good; k failures cannot turn a peer with k + 8 answers."
 ],
 "C146": [
  "proved",
  "The gap-free meeting of the two limits uses that rates are multiples of 1/31, so 1/4 is never reached exactly."
 ],
 "C147": [
  "partial",
  "All decisions proved. Refuted: a new peer which answered 16 requests in a row loses its place with its first failure, because the credited failures still count."
 ],
 "C148": [
  "partial",
  "Proved for every selection that fits in 32 bits. Refuted: LOG_GLOBAL has bit 35, the setting has 32 bits, so selecting it has no effect."
 ],
 "C149": [
  "partial",
  "Proved for one flushing thread if each write fails or takes the whole line; proved for any schedule of threads that no entry is lost or doubled. Refuted: a write that takes a part and then fails repeats the part; two threads can exchange lines."
 ],
 "C15": [
  "partial",
  "Insert/take histories refine a priority queue with no bound but 32768 places; removal at an index only sifts down (C15_remove_refuted), larger heaps overflow a 16-bit child index (C15_large_refuted)."
 ],
 "C150": [
  "partial",
  "Proved for at most 31 (32 at shutdown) waiting entries. Refuted: with 32 waiting entries the error itself is not written; with 40 at shutdown 8 are lost."
 ],
 "C151": [
  "partial",
  "Proved while log files rotate, for histories of fewer than 2^32-1 steps. Refuted: without rotation (debug builds) the log is emptied at ten million bytes; a restart empties the first file of the earlier run."
 ],
 "C152": [
  "partial",
  "Refuted for every accepted message: the text is never stored in callback mode, so the callback and free get a pointer never set. Proved: the length is right."
 ],
 "C153": [
  "partial",
  "Proved for names with a dot in the last component and an extension of at most 13 characters after it. Refuted for the others."
 ],
 "C154": [
  "partial",
  "Proved without a function of the application for messages with text and at most three levels, and files that open. Refuted: empty message, four levels, log file that cannot be opened at a rotation."
 ],
 "C155": [
  "partial",
  "The stride is the least prime for all values up to 251 (refuted for 252 to 255); one table and 9 to 32 tables give different positions. Refuted: with 2 to 8 tables every addition and query shifts by 32 or more; 0 divides by zero, more than 32 write outside the array."
 ],
 "C156": [
  "partial",
  "Proved for all histories without another entry of the same index and queries sent to at most six peers; exact characterisation of the results; entries go exactly to the nearest tables. Refuted: an entry of the same index replaces the first; a query sent to seven peers is not answered locally."
 ],
 "C157": [
  "partial",
  "Everything handed out is a result, and all are if the numbers of hits differ. Refuted: of results with the same number of hits only one is handed out."
 ],
 "C158": [
  "partial",
  "Only queries and results with the number of the query change its results. Refuted: queries of other nodes are never answered but merged into the own query of the same number; the number in a result message is not checked."
 ],
 "C159": [
  "partial",
  "Proved for additions, queries, foreign queries and entries under explicit conditions. Refuted: the 256th query, incomplete messages, query number 255, late collection, entries equally far from all tables, entries sent to more than six peers."
 ],
 "C16": [
  "partial",
  "Double linked and priority lists: full refinement for all histories at pointer level (no use after free, no leak). Single linked list: use after free after clear (C16_sll_refuted), otherwise full; pll_find wrong for three-way comparators (C16_pll_find_refuted)."
 ],
 "C160": [
  "partial",
  "Proved for all sequences of authorisations that stay in the language. Refuted: a peer with the complement of one of our words, a type attribute of 22 bytes."
 ],
 "C161": [
  "partial",
  "A chosen peer is strictly nearer and the nearest of the places walked through. Refuted: own objects are sent by the key zero; a peer that agrees with the key in the row is not chosen."
 ],
 "C162": [
  "partial",
  "The spacing is proved for all histories. The end with the session is refuted: no code sets the handshake status to connected, so handshakes go on every five seconds while the peer is in setup."
 ],
 "C163": [
  "partial",
  "Session first is proved outright; the spacing of joins is proved while no token of the peer arrives, and refuted with one."
 ],
 "C164": [
  "partial",
  "Proved for the first 97.2 s of the key. Refuted afterwards (a peer in no table is dropped, after at most twenty handshakes) and when its network could not be created (dropped without any)."
 ],
 "C165": [
  "partial",
  "Proved when the network for the address was created. Refuted when that failed: the key loses its wildcard type and the attempt never ends."
 ],
 "C166": [
  "partial",
  "Proved in the first 97.2 s for joins sent by the periodic check. Refuted for the join that answers a token of the peer: it counts as accepted at once."
 ],
 "C167": [
  "partial",
  "Handled-iff and no change otherwise proved outright; order and number of calls proved when no function hands an event to the machine itself. With such a nested call the exit function of the state that was left runs twice and its enter function runs last (refuted). Conditions are taken to have no side effects."
 ],
 "C168": [
  "partial",
  "Proved when the first active rule with the target applies; failing requests fully characterised. Refuted in general: a failing rule hides a later one for the same target. Not called by the library itself."
 ],
 "C169": [
  "partial",
  "Only one transition is made (refuted); whether there was one is reported correctly. Not called by the library itself."
 ],
 "C17": [
  "partial",
  "Proved over the concrete red-black tree for every history with keys of one kind: texts up to 255 bytes, ids, uuids, finite doubles, integers within a window of 32768 values. Refuted outside: keys of different types match each other, unsigned keys 65536 apart are the same key, integers far apart get lost, texts over 255 bytes are not found again."
 ],
 "C170": [
  "proved",
  "For every list of rules; allocation is taken to succeed."
 ],
 "C171": [
  "partial",
  "Proved for every list of names and values without '&' and '='. Refuted for a name without a value and a value with '=': the pairs shift."
 ],
 "C172": [
  "partial",
  "Method, path and headers always; arguments if the request has a query; a body that arrives in one part. Refuted: without a query the arguments of an earlier request are seen, of a body in parts only the last one, and the body of an earlier request stays. Requests of the usual form (no chunks, lines end with CR LF)."
 ],
 "C173": [
  "partial",
  "Proved for methods of the protocol and paths of at most 124 bytes, for the first registration. Refuted: registering again has no effect, longer paths share a handler, a request line without version as the first on a connection reads from an invalid address."
 ],
 "C174": [
  "partial",
  "All names but two; created and accepted are exchanged (refuted); a handler returning the code itself reads behind the table (refuted)."
 ],
 "C175": [
  "partial",
  "Exact bound: 8000 bytes before the end; beyond it memory behind the buffer is written (refuted with the data of 104 nodes)."
 ],
 "C176": [
  "partial",
  "A beginning of the answer always, all of it if the network takes it, provided the head is taken at once. Refuted: a head of 2048 or more bytes, a head that is taken in part, the answer after a broken one."
 ],
 "C177": [
  "partial",
  "Requests of the usual form (method but CONNECT, path with a slash, HTTP/1.0 or 1.1, non-empty header values, declared length of at most 19 digits). Refuted for bodies in chunks: the handler gets the last chunk and the length 0. Not covered: scheme and host in the request line, empty or continued header values."
 ],
 "C178": [
  "proved",
  "For all bytes, cuts and states; up to the end of the first request, because a read is given up there (C180)."
 ],
 "C179": [
  "partial",
  "Refuted: a header line without a colon, and a blank before a LF at the end of the request line, run into assertions; a request line without a version is looked up without a path. Proved for requests of the usual form."
 ],
 "C18": [
  "partial",
  "Proved for serialized payloads up to 64800 bytes; above that the 16-bit truncation loses data for every payload (C18_large_refuted)."
 ],
 "C180": [
  "partial",
  "Proved for one request per read. Refuted for requests that arrive together, and for a request after an empty line in the same read."
 ],
 "C181": [
  "partial",
  "Proved for lengths of at most 19 digits. Refuted for 20 digits: the product wraps without being noticed."
 ],
 "C182": [
  "partial",
  "The number of bytes held never exceeds 8192, and longer paths are refused. Refuted: the zero after the last byte is written one past the buffer."
 ],
 "C183": [
  "partial",
  "Proved if the first byte is refused. Refuted for a request line that ends with LF alone: the parser stays in that state for ever."
 ],
 "C184": [
  "partial",
  "Proved for every history in which each report names its node, in at most 255 bytes, and its time. Refuted for a report without a time: all later ones about that node are ignored."
 ],
 "C185": [
  "partial",
  "Proved for what the server tells about itself when asked for itself. Refuted for all other nodes, for the list of all, and with a time in the future the node itself is shut out."
 ],
 "C186": [
  "partial",
  "Proved for every history of proper reports about at most 32767 nodes. Refuted for a single report without a time: the server that is asked stops, whatever arrives later."
 ],
 "C187": [
  "partial",
  "Proved for the list of all. Refuted for the report on one node, which is given however old it is."
 ],
 "C188": [
  "partial",
  "Proved for keys of 64 bytes without a slash, after every history of proper reports. Refuted for keys of any other length, and when the http interface is started after the reports were enabled."
 ],
 "C189": [
  "partial",
  "Proved once the reports are enabled. Refuted before: asking for the node itself or for all stops the process."
 ],
 "C19": [
  "proved",
  "Any number of messages interleaved, every arrival order, byte-level round trip; start values whose counter overflows are outside the quantifier and shown to corrupt memory (C19_counter_wrap_refuted)."
 ],
 "C190": [
  "partial",
  "Proved for connections without arguments. Refuted: connect_string lets the node join, and again with each later request of the connection."
 ],
 "C191": [
  "partial",
  "Refuted for every history: closing a file, which happens when it is shared, sets its size to 0, and a file of size 0 cannot be mapped again, so no page has a content and no file is sent. Proved: the page says the same every time."
 ],
 "C192": [
  "partial",
  "Refuted for pages of files: they move the process into the directory of the file and close a descriptor twice. Proved for sharing and for pages of directories."
 ],
 "C193": [
  "partial",
  "Proved for trees of any depth if all names are different and new and all files can be read and have a content. Refuted for files or directories of the same name, for a directory with the name of a file, and for empty or unreadable files, where unset members are used."
 ],
 "C194": [
  "partial",
  "Proved: what is not visible in what is shared does not become shared. Refuted: a hidden file that is named is shared, and whoever reads the page of a directory can have anything shared."
 ],
 "C195": [
  "partial",
  "Refuted after every history: np_files_close has an empty body."
 ],
 "C196": [
  "partial",
  "Proved for every suffix of the table but .csv and for names without a suffix. Refuted: .csv is taken for .css, and unknown suffixes for known ones."
 ],
 "C197": [
  "partial",
  "Proved for pages of directories and of nothing. Refuted for pages of files, which name the type of the file."
 ],
 "C198": [
  "partial",
  "Proved for complete messages and a disk that takes them. Refuted: the sender chooses the path, a message without its parts stops the process and may empty a file, a partial write is not noticed."
 ],
 "C199": [
  "partial",
  "Proved for files with a last end of line, and without one if the file does not fill its last page, both without zeros. Refuted for files that fill their last page and for lines with a zero."
 ],
 "C20": [
  "partial",
  "Proved if chunk 0 of each message arrives first; otherwise a duplicate can be counted twice (C20_refuted)."
 ],
 "C200": [
  "partial",
  "Proved for names of up to 215 bytes that do not begin with a blank. Refuted: a blank before a short name makes no difference, and with names of 254 bytes or more neither number nor time do."
 ],
 "C201": [
  "partial",
  "Proved for messages made at different times, in steps of 2^-22 seconds. Refuted: the id depends on nothing but the time, so messages of different nodes may have the same; of two with the same id on one channel only the first is waited for and sent again."
 ],
 "C202": [
  "proved",
  "For every hash: the hashed blocks differ. Times from 2004 to 2038."
 ],
 "C203": [
  "partial",
  "For trees whose keys are shown by different names, none of them an int or an id, with numbers up to 2^53, finite fractions, UTF-8 texts and no single characters. Refuted otherwise: keys with the same name, ids as keys, texts that are not UTF-8. The text of a tree as JSON is made by parson, which is not in the repository."
 ],
 "C204": [
  "partial",
  "For trees with ints as keys only, and values as in C203. Refuted: the positions are not the keys, entries with names before an int are lost and those after it lose their names, an empty list is an object."
 ],
 "C205": [
  "partial",
  "Up to 2^53; refuted for 2^53+1."
 ],
 "C206": [
  "partial",
  "For all trees without single characters; refuted for one with a single character. No code of the repository puts a single character into a tree, but the functions for it are there and a tree that is read from the wire may have one."
 ],
 "C207": [
  "partial",
  "For a peer that was set up once, whose address is written as inet_ntop writes it, and for addresses with different hashes. Refuted: a peer that was set up twice listens on the subject 0, peers of different networks may share a subject, short packets and read errors use bytes that were never written."
 ],
 "C208": [
  "partial",
  "That only whole packets are handed over, unchanged, and all of them. Refuted: each is handed over twice, the sender is not checked, the header may be longer than the packet."
 ],
 "C209": [
  "partial",
  "Only such nodes become peers; they do if their address has as many characters as ours and they announce no route. Refuted: addresses of another length are rejected, a route of more than 16 bytes overwrites the stack, a shorter one is followed by what was there before."
 ],
 "C21": [
  "proved",
  "All build histories of additions, unions and intersections for every size; an operation that aborts (full filter, size over the 16-bit counter, union over capacity) or accesses memory outside the array is a distinct outcome, and C21_limits_refuted shows when that happens."
 ],
 "C210": [
  "partial",
  "For all histories without undefined behaviour, and for a first start, stop and destroy. Refuted: a second start frees the tunnel, destroying a running one writes out of bounds, errors are forgotten, a stop before the first start makes it read the standard input."
 ],
 "C211": [
  "partial",
  "The number of bits is rounded up to a multiple of 8, so that it is right for multiples of 8 only; undefined for a netmask of 0."
 ],
 "C212": [
  "partial",
  "Adding stays inside the request. Refuted: the kernel sees nothing of what was written, and deleting writes outside of the request."
 ],
 "C213": [
  "partial",
  "Proved for results with UTF-8 texts, finite similarity and titles that end with a zero byte: the list is the beginning of the results that fits into 65534 bytes, all of them if all fit. Refuted: what does not fit is left out silently, an object instead of a list, titles without a zero byte."
 ],
 "C214": [
  "partial",
  "Statuses 200 and 400 are characterised outright. Refuted: 204 comes with a body."
 ],
 "C215": [
  "partial",
  "Proved if the titles are missing or texts with a final zero byte and the clean-up does not come after more than a minute. Refuted: a number as title, bytes without a zero byte, a slow search."
 ],
 "C216": [
  "proved",
  "For every cipher that inverts itself; the time is a natural number, the way itself (which node is next) is any list. The last theorem composes with the reassembly of C19."
 ],
 "C217": [
  "partial",
  "Proved for messages of users whose random nonces differ in more than their first two bytes: the nonces of all their packets are distinct. Refuted for messages of the system (ping, join, acknowledgements, pheromones, discovery): their nonce is never set, so two that are made in memory with the same old content have the same nonce, and with a stream cipher the sum of their contents is public."
 ],
 "C218": [
  "partial",
  "Proved for messages of users: the packets on the link do not depend on old memory. Refuted for messages of the system: the nonce in clear is twelve bytes of old memory, in handshakes also the sixteen bytes of the mac."
 ],
 "C219": [
  "partial",
  "Proved for every history when the receiver's intent comes in while the sender's newest intent is the announced one, for all later histories in which it is not lost, if ids of sessions do not clash; refuted for intents that come in between a new intent and its announcement (C219_window_refuted, C219_first_refuted)."
 ],
 "C22": [
  "partial",
  "Found for at least fifteen agings (full). Expiry at the sixteenth aging is proved for ids that were not in the filter when added; it is false for ids added again while still found, which survive up to 30 further agings (C22_refresh_refuted). Everything is gone after 32 agings."
 ],
 "C220": [
  "partial",
  "Proved: no key is sent to a receiver that was lost before the next announcement. Refuted: no new key is made on a loss (C220_key_refuted), and a receiver that was there over an announcement is sent all later keys (C220_session_refuted)."
 ],
 "C221": [
  "proved",
  "For every history and all ids."
 ],
 "C222": [
  "partial",
  "Proved: at most one message for each intent of a receiver that ever came in. Refuted: with one receiver the number of messages is the number of renewals (C222_growth_refuted)."
 ],
 "C223": [
  "partial",
  "Proved for every identity, channel and receiver: acceptance until expiry if no attribute set by the user has the name of one of the two counters, verification of the issuer if none has the name of the identity. Missing: such attributes, which replace the values. Refuted for attributes that leave no room for the fingerprint of the node: the node aborts."
 ],
 "C224": [
  "proved",
  "For all 64-bit values of times; `dgt` is the comparison of doubles of area Token, false for values that are not numbers."
 ],
 "C225": [
  "partial",
  "Proved for handshake and identity tokens. Refuted for the public token of a node: the call aborts whatever the node is; nothing in the library calls it."
 ],
 "C226": [
  "partial",
  "Proved for every limit but 24 that it can be written into the intent if there is room. Refuted for 24: with the functions of the library on attributes the node aborts when it makes the intent, whatever the identity, the other properties and the room are."
 ],
 "C227": [
  "partial",
  "Proved for every history of fewer than 65535 calls with entries whose size the library computes correctly: never found outside of its scopes; if all merges had room, found in every included target, with the last value of the scope, or of one of the scopes if the key was set with several; own attributes stay. Refuted for attributes without room beside the id of the sender: the call returned np_data_ok, the message goes out without the attribute."
 ],
 "C228": [
  "partial",
  "Proved for calls without a scope. Refuted with a scope: for every token without room for the attribute and every empty cache with room for it the call returns np_data_ok, and the token stays as it was."
 ],
 "C229": [
  "partial",
  "Proved for binary attributes that are there and fit into the memory of the caller. Refuted for missing keys (an unset pointer is read, whatever the message is), for values longer than the memory of the caller (a sender can write past up to 10000 bytes), for numbers and without a configuration. A null pointer in the place of the memory, as in examples/neuropil_iot_car.c, fails an assertion (by definition of the model)."
 ],
 "C23": [
  "partial",
  "Compliant tokens pass if policy entries plus three per attribute fit into 64; beyond that the check aborts the process (C23_large_token_refuted). The attributes are the list the iteration of the data block yields."
 ],
 "C230": [
  "partial",
  "Proved: after np_data_ok the requirement was added in every direction the channel is used in, the former ones are kept, and intents without the key are refused (up to collisions and the capacity of the filter, area Bloom). Refuted for channels that are only used for receiving: np_invalid_operation is returned although the policy was set and intents are refused from then on. Missing: requirements with values (area Bloom, C63)."
 ],
 "C24": [
  "proved",
  "All histories of arrival, flush and expiry; cache size at least 1."
 ],
 "C25": [
  "partial",
  "At most once until a clean-up later than the first recorded expiry; redelivered copies with a later expiry break the claim (C25_at_most_once_refuted)."
 ],
 "C26": [
  "partial",
  "The limit is never enforced by the code (C26_never_breached, C26_max_parallel_refuted, C26_unbounded); only the counter facts are proved."
 ],
 "C27": [
  "partial",
  "Order and stop proved for the channel dispatch; np_add_receive_cb ignores the user's result (C27_stop_on_reject_refuted)."
 ],
 "C28": [
  "partial",
  "Proved for np_set_mx_authorize_cb; the three global setters overwrite (C28_global_set_once_refuted)."
 ],
 "C29": [
  "partial",
  "Exact acceptance condition for every received token and history of checks. The start of the validity period is never checked (C29_not_before_refuted) and an expiry that is not a number never passes (C29_nan_refuted)."
 ],
 "C30": [
  "partial",
  "Proved what acceptance implies; the key the issuer signature is checked with is taken from the token itself, so anyone can forge an issuer (C30_forgery, C30_refuted), and the entry's type and size are unchecked (C30_memory_refuted)."
 ],
 "C31": [
  "partial",
  "Uuid, key, times and the concatenated text are covered; text can move between realm, issuer, subject and audience (C31_refuted) and the type is not covered (C31_type_refuted)."
 ],
 "C32": [
  "partial",
  "Proved for every reachable state: a peer's intent becomes authorized only by a callback saying yes to it, or by taking the place of an authorized one; and the exact decision formula. Refuted: a channel callback's no is overruled by the global callback; with callbacks for both directions the yes of the receiving direction is lost."
 ],
 "C33": [
  "partial",
  "Invariant over all histories without single sender/receiver patterns: an authorized intent has the key and uuid of one that was granted. Refuted with SINGLE_SENDER announced by the peer (takes over uuid and authorization) and for another issuer with the same key and uuid."
 ],
 "C34": [
  "partial",
  "Proved for sending. Receiving is refuted: np_mx_properties_disable starts the event of the receiving direction at the key of the subject and not at the receiving key, so arriving messages are still delivered."
 ],
 "C35": [
  "proved",
  "Invariant over all histories of the key state machine; decryption, token validity, callbacks, clock and routing state are arbitrary per step. Handshake messages are part of the admission (they are unencrypted and come first)."
 ],
 "C36": [
  "proved",
  "Events are processed one by one in the order raised, each exactly once, payload references balanced; the limit of 255 events per chain (abort) is stated separately."
 ],
 "C37": [
  "proved",
  "Histories of guarded joins and leaves as the node component issues them (flag is_in_routing_table tested and set); interleavings inside one such operation are not modelled. C37_needs_flags shows that the table function alone would enter a peer twice."
 ],
 "C38": [
  "proved",
  "Statement proved for every history. The stronger reading of the title (the nearest peers are kept) is refuted by C38_nearest_refuted."
 ],
 "C39": [
  "partial",
  "Bounded (19 per list, 31 lists) and without duplicates for every history, including scents composed by remote nodes. The order is not kept (C39_order_refuted)."
 ],
 "C40": [
  "proved",
  "All lists and keys."
 ],
 "C41": [
  "partial",
  "Torn down at most once holds for every interleaving. Sequential histories and the checks of np_run and np_use_identity for calls that begin after the status is set are proved. Refuted: after np_destroy every call uses freed memory, a concurrent np_run revives a context in shutdown, the identity can change while running, workers can be started twice."
 ],
 "C42": [
  "partial",
  "Proved for every history, over all channels, in which the channel is opened for receiving before it becomes a mere sender and gets a sending role before np_send. Refuted otherwise: nothing is read back for a provider, zero resets a provider's values, np_send reverts replaced settings, settings given on hold are lost for sending; intent_update_after 0 means 3, fractions of a second are cut, reply id and audience are never reported."
 ],
 "C43": [
  "partial",
  "Round trip at the level of bytes for all trees with keys of one kind and values that arrive. Refuted: one-character keys and texts, numbers from 2^63 on, floats, unsigned characters, uuid keys."
 ],
 "C44": [
  "partial",
  "Channel partners: full agreement on ids, roles and keys, given libsodium's key exchange law. Handshake: proved for different priorities, refuted for equal ones."
 ],
 "C45": [
  "partial",
  "Bound 2*(n/10+1) calls for every history in which the key where a call stopped survives until the next call; unconditional for an unchanging cache. Refuted in general: C45_starved_refuted."
 ],
 "C46": [
  "partial",
  "The full statement is refuted: np_memory_new and the first reference are two steps, and np_memory_unref_obj's release check is a separate step from its decrement, so a late release check can free another thread's new object (C46_never_early_refuted) or touch memory given back (C46_no_abort_refuted). Proved for all interleavings where creation is not interrupted and memory is given back only while no unref runs."
 ],
 "C47": [
  "proved",
  "Every operation sequence, every order, every random height. np_skiplist_map first calls the map function with the last item below the bound, or the root's null pointer; np_skiplist_find replaces *item by the next larger item when the item is absent: both are part of the specification."
 ],
 "C48": [
  "partial",
  "Proved for every interleaving after one undisturbed call. Refuted: concurrent first calls spoil the table; a buffer of 64 bytes overflows by one."
 ],
 "C49": [
  "partial",
  "Both directions proved for ids; a realm text that is no id is lost (C49_realm_refuted)."
 ],
 "C50": [
  "proved",
  "At the level of the tree of named values; its byte encoding is a separate property (C43)."
 ],
 "C51": [
  "partial",
  "Cached messages are released if all have a session; head-of-line blocking otherwise (C51_release_refuted)."
 ],
 "C52": [
  "partial",
  "Safe for all arrivals of packets of well-formed messages; hostile packets write out of bounds (C52_memory_safe_refuted)."
 ],
 "C53": [
  "proved",
  "For all messages and nonces."
 ],
 "C54": [
  "proved",
  "For every lawful signature scheme and attribute store."
 ],
 "C55": [
  "partial",
  "Rejection proved; but the call fails for every token, valid or not (C55_refuted)."
 ],
 "C56": [
  "partial",
  "All crashing steps are characterised for every reachable state; refuted by a partner fingerprint of wrong size (ASSERT) and by an authorized intent before the channel has an own intent (null dereference). A channel that has an own intent keeps one."
 ],
 "C57": [
  "proved",
  "All three lookups, for every reachable state: no crash, and exact results."
 ],
 "C58": [
  "partial",
  "Proved for histories without single sender/receiver patterns; one check removes one intent."
 ],
 "C59": [
  "partial",
  "Refuted in general: a join message may carry the (public) token of another peer. Proved: a connection comes into use only from the waiting state and only by the notice of an accepted token."
 ],
 "C60": [
  "partial",
  "Refuted in general: a leave message with the public token of another peer ends that peer's membership, even on an unauthenticated connection. Proved: the event must carry a valid node token with the public key of the peer that is marked as left."
 ],
 "C61": [
  "proved",
  "All histories; the 16-bit counter cannot wrap."
 ],
 "C62": [
  "proved",
  "Latency and success metrics are arbitrary parameters. C62_own_id_refuted: a lookup with count >= 2 for the own id aborts."
 ],
 "C63": [
  "partial",
  "A passing token covers all required keys and values cell-wise; that the values belong to the keys is false for every hash function (C63_values_under_other_keys_refuted)."
 ],
 "C64": [
  "partial",
  "Proved while the 8 bit counters of the position have room, the clock moved and distances differ; refuted in general: the 255th refresh of a target with two words in one cell makes it unfindable (C64_overflow_refuted)."
 ],
 "C65": [
  "partial",
  "Proved for scents of single targets, at most 30 per position, peers at different distances. Refuted: the 32nd target at one position keeps the table locked or aborts a debug build; several kinds of remote scents abort the process."
 ],
 "C66": [
  "partial",
  "False: C66_oldest_refuted. Proved: what is dropped is the oldest or at least older than the first element."
 ],
 "C67": [
  "partial",
  "Proved: reading the header of any memory returns, iterating over any memory ends. Refuted: a block of 21 bytes that claims to hold an object makes np_get_data and np_set_data loop forever; a key that is a number is used as an address."
 ],
 "C68": [
  "proved",
  "Concrete model of the RB_ macros with colours; balance and absence of null dereferences for every history, with any keys and even for keys whose comparison is not an order."
 ],
 "C69": [
  "partial",
  "For trees with keys of one kind. Refuted for in-place trees with texts over 255 bytes."
 ],
 "C70": [
  "partial",
  "For trees with keys of one kind."
 ],
 "C71": [
  "partial",
  "Refuted: the handler is looked up as text in a tree keyed by uuid, so any acknowledgement marks the handler at the root of the tree. Proved when only one message waits."
 ],
 "C72": [
  "proved",
  "For every interleaving of the four operations on one channel; each operation is one step."
 ],
 "C73": [
  "partial",
  "Proved if at most 31 messages wait. Refuted for more: a check looks only at the first 31 in uuid order."
 ],
 "C74": [
  "partial",
  "Sending stops until enabled, for every history. Refuted for receiving (the event goes to the wrong key) and for a channel without a sending half."
 ],
 "C75": [
  "partial",
  "At most once for every interleaving; exact list and order for sequential histories with callbacks added after np_run. Refuted: callbacks added before np_run are lost, a null callback hides the later ones, a callback that adds a callback deadlocks."
 ],
 "C76": [
  "partial",
  "Proved when listening never fails; refuted otherwise: the failure is forgotten."
 ],
 "C77": [
  "partial",
  "Proved up to 130 threads; refuted from 131 to 255 (never ends) and for multiples of 256 (none)."
 ],
 "C78": [
  "partial",
  "Proved for all histories except for unsigned 16-bit numbers from 32768 on and hashes longer than 255 bytes, which are refuted."
 ],
 "C79": [
  "partial",
  "Proved for histories in which no send or recv call stops in the middle of a packet; refuted otherwise: a partly written packet is written again from its start, a partly read one is thrown away, and the stream is out of step from then on. Unconditional: what is handed on are unbroken pieces of the written bytes, in order."
 ],
 "C80": [
  "partial",
  "Proved if no datagram is shorter than a packet; refuted for short ones: a short datagram is put before the next packet of another peer, and an empty one stops the interface for good. Unconditional: a packet ends with bytes sent by the peer it is attributed to."
 ],
 "C81": [
  "partial",
  "Proved for limits up to 253 and addresses whose hash positions do not collide: the filter then is exactly one counter per address, halved at each reset. Refuted: with the default setting (256), or any of 254 or more, nothing is ever dropped; and with a smaller limit a peer that steadily sends 88% of it has packets dropped."
 ],
 "C82": [
  "partial",
  "Proved for at most 4096 packets between two resets from the start. Refuted: 4097 packets within 0.88 seconds end the process, and so does any slow traffic of at most one packet per address between two resets, with its 4097th packet."
 ],
 "C83": [
  "partial",
  "Proved for private hash positions, and for low traffic in total. Refuted: one shared position of eight is enough for one peer to have the packets of another dropped."
 ],
 "C84": [
  "partial",
  "Proved if parts are handled one at a time, the size of the filter stays and less than 16 bits are shifted out; with threads, for every part checked after the message was handed on. Refuted: two threads that check before either enters the message both hand it on; a new size of the filter (8 peers, 27, ...) forgets all; 16 decays forget a message."
 ],
 "C85": [
  "partial",
  "Proved for messages with a position that no handled message has; refuted: a message whose positions are covered by others is lost."
 ],
 "C86": [
  "partial",
  "Proved below 512 peers: with one thread for all histories, with many threads for at most 67 parts between two decays. Refuted: with 512 peers the next message aborts the process and the next clean-up never ends."
 ],
 "C87": [
  "partial",
  "Proved for every history if own addresses have at most 40 characters and none is the beginning of another. Refuted: after listening on 192.168.1.5 and 192.168.1.50 the reported address changes."
 ],
 "C88": [
  "partial",
  "Proved: the exact return value, and that a text that is no address leads to no contact. Refuted: np_join returns np_ok for a malformed address."
 ],
 "C89": [
  "partial",
  "Proved for texts that do not have exactly max characters. Refuted: no terminating NUL for exactly max characters; np_operation_failed instead of np_invalid_operation without an interface."
 ],
 "C90": [
  "partial",
  "Proved: whatever is contacted is what the text names up to the cuts; a public node contacts a new public peer. Refuted: peers whose address and port contain those of a known peer are skipped, a key with a typing error becomes the wildcard, long host names are cut, joining a node on the same private address is undefined behaviour, a node without interface aborts."
 ],
 "C91": [
  "partial",
  "Proved if the address is not the main address and the socket can be opened; opened sockets stay. Refuted: a second port or protocol on the main address, a port in use, the documented default port."
 ],
 "C92": [
  "partial",
  "Proved: IPv4 private ranges exactly, the count of common leading numbers of different IPv4 addresses, the three rules for contacts. Refuted: link local IPv6 addresses outside fe80::/16, equal IPv4 addresses (undefined), loopback by prefix of the text."
 ],
 "C93": [
  "partial",
  "Proved: round trip into a fresh token over any history of unprivileged calls; saving succeeds. Missing: files written over older ones, privileged processes. Refuted: loading into a used token keeps the end of its subject."
 ],
 "C94": [
  "partial",
  "Proved: round trip of saved and created keys as long as the file is unchanged, and that the first save succeeds. Refuted: an unprivileged process can replace a key only if errno happens to be ENOENT."
 ],
 "C95": [
  "proved",
  "Relative to the secret box of libsodium, which is a parameter."
 ],
 "C96": [
  "partial",
  "Proved: for unprivileged processes and saves in different seconds. Refuted: two saves in one second, and privileged processes."
 ],
 "C97": [
  "partial",
  "Proved: no file outside an existing directory changes, loading changes none, the current directory is restored. Refuted: a failing load of a secret key stays in the other directory; a directory that does not exist is silently replaced by the current one."
 ],
 "C98": [
  "partial",
  "Proved: saving; loading of files that are not longer than the buffer and do not open. Missing: files made with the passphrase by another program. Refuted: longer files overflow the buffer before anything is checked."
 ],
 "C99": [
  "partial",
  "Proved: what is found was stored; a single identity is found. Refuted for every store: of two identities with different fingerprints at most one is found, because the comparison of the search is the wrong way round; the other cannot be stored again; 65 identities abort the program."
 ]
}