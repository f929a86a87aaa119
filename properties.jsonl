{"id": "C01", "title": "uint32 and IPv4 conversions are mutually inverse", "statement": "IPv4ToUint32(Uint32ToIPv4(x)) = x for every uint32 x, and Uint32ToIPv4(IPv4ToUint32(ip)) is the 16-byte form of ip for every IPv4 address given in 4-byte or mapped 16-byte form; IPv4ToUint32 panics on every other address.", "quantifier": "all 2^32 integers and all byte slices", "why_tests_cant": "the tests sample ten random integers out of 2^32", "anchors": ["ipnet/ip.go:Uint32ToIPv4", "ipnet/ip.go:IPv4ToUint32"]}
{"id": "C02", "title": "NextIP is the numeric successor", "statement": "NextIP(ip) has the same length as ip and, read as a big-endian number, equals ip+1, wrapping to zero exactly on the all-ones address.", "quantifier": "byte slices of every length and content", "why_tests_cant": "carry chains of every length cannot be enumerated", "anchors": ["ipnet/ip.go:NextIP"]}
{"id": "C03", "title": "IPLess is the numeric strict total order on addresses", "statement": "For addresses of 4 or 16 bytes, IPLess(a,b) holds iff the 128-bit value of a (IPv4 taken as ::ffff:a.b.c.d when lengths differ) is below that of b; hence it is irreflexive, transitive and total up to equal value, whatever mix of 4- and 16-byte forms is used.", "quantifier": "all pairs/triples of 4- and 16-byte addresses", "why_tests_cant": "pairs of 128-bit values", "anchors": ["ipnet/ip.go:IPLess", "ipnet/range.go:Ranges.Less"]}
{"id": "C04", "title": "LastIP and NextStart delimit exactly the addresses of a CIDR", "statement": "For every CIDR network net/k, an address belongs to the network (first k bits equal) iff net.IP <= address <= LastIP(net); NextStart(net) is the address right after LastIP, wrapping at the top of the space.", "quantifier": "all networks, all prefix lengths 0..32 / 0..128, all addresses", "why_tests_cant": "the address set of a /0 has 2^128 members", "anchors": ["ipnet/ipnet.go:LastIP", "ipnet/ipnet.go:NextStart", "ipnet/ip.go:IpNet"]}
{"id": "C05", "title": "Contains decides interval membership, with the exact behaviour at the top", "statement": "Contains(start,end,ip) is true iff start <= ip and ip is below the address after end, for the function and for Range.Contains. That is start <= ip <= end unless end is all ones; in a range that ends at the last IPv6 address (or, with a four-byte start, at a four-byte 255.255.255.255) nothing is contained.", "quantifier": "all triples of addresses", "why_tests_cant": "includes intervals ending at the very top of the address space, where NextIP wraps", "anchors": ["ipnet/ipnet.go:Contains", "ipnet/range.go:Range.Contains"]}
{"id": "C06", "title": "Joining ranges yields exactly the union or leaves the range untouched", "statement": "Range.Join / Range.JoinIPNet return true iff the added block starts not before the range and not after the address that follows its end (which wraps to the first address when the end is all ones), in which case the range afterwards denotes exactly the union of the two address sets; otherwise they return false and the range is unchanged.", "quantifier": "all ranges and all networks", "why_tests_cant": "adjacency and containment at every boundary", "anchors": ["ipnet/range.go:Range.Join", "ipnet/range.go:Range.JoinIPNet", "ipnet/range.go:NewRange"]}
{"id": "C07", "title": "CommonRange computes the intersection around an address", "statement": "Range.CommonRange(ip,r2) returns true iff ip lies in both ranges, r2 does not start after the address that follows the end of the range, and ip is below the address that follows the lower of the two ends (the last two always hold unless an end is all ones, where the following address wraps); in that case the range afterwards denotes exactly the intersection; otherwise it returns false and the range is unchanged.", "quantifier": "all pairs of ranges and all addresses", "why_tests_cant": "all overlap configurations of 128-bit intervals", "anchors": ["ipnet/range.go:Range.CommonRange"]}
{"id": "C08", "title": "IPNets covers the range exactly, in order, without overlap", "statement": "For every range with Start <= End, Range.IPNets returns a list of well-formed CIDR blocks, the first starting at Start, each next one starting right after the previous one ends, the last ending at End: every address of the range lies in exactly one block and no other address lies in any. For a range with Start > End it returns exactly one block, the largest that can start at Start.", "quantifier": "all ranges Start <= End of the 128-bit space (4- or 16-byte ends)", "why_tests_cant": "there are 2^255 ranges; block sizes depend on carry and alignment", "anchors": ["ipnet/range.go:Range.IPNets", "ipnet/range.go:PrefixSameLength", "ipnet/range.go:SuffixZeroLength"]}
{"id": "C09", "title": "IPNets uses the fewest possible CIDR blocks", "statement": "No list of CIDR blocks whose union is exactly the range is shorter than the list returned by Range.IPNets.", "quantifier": "all ranges and all alternative covers", "why_tests_cant": "quantifies over all covers of all ranges", "anchors": ["ipnet/range.go:Range.IPNets"]}
{"id": "C10", "title": "IPNets terminates with few blocks", "statement": "Range.IPNets returns after at most 254 blocks for every range with Start <= End (it never loops forever).", "quantifier": "all ranges Start <= End", "why_tests_cant": "termination for all inputs", "anchors": ["ipnet/range.go:Range.IPNets"]}
{"id": "C11", "title": "ipdb pack then query returns the packed record", "statement": "Packing any list of pairwise disjoint CIDR rows to .ipdb and opening the result with the query API gives, for every address covered by a row, that row's field values (continent codes spelled out) under the IpInfo attribute of each field.", "quantifier": "all row lists, field lists, values (no tab, record under 64 KiB) and all addresses", "why_tests_cant": "the trie layout depends on the whole insertion history", "anchors": ["db/format/ipdb/packer.go:pack", "db/format/ipdb/writer.go:Writer.insert", "db/format/ipdb/writer.go:Writer.Nodes", "db/format/ipdb/writer.go:Writer.Fields", "db/format/ipdb/writer.go:Writer.Save", "db/format/ipdb/reader.go:newReaderFromBytes", "db/format/ipdb/reader.go:reader.find0", "db/format/ipdb/querier.go:querier.Query"]}
{"id": "C12", "title": "ipdb query reports the network of the packed row", "statement": "In the situation of C11 the returned mask is the prefix length of the covering row, counted in the address family of the queried address.", "quantifier": "all row lists and addresses", "why_tests_cant": "depends on cache depth, family offset and trie depth for every prefix length", "anchors": ["db/format/ipdb/reader.go:reader.search", "db/format/ipdb/reader.go:reader.readDepth", "db/format/ipdb/querier.go:querier.QueryInternal"]}
{"id": "C13", "title": "An address outside every packed row yields no data", "statement": "Querying an .ipdb packed from rows, at an address no row covers, or of a family the database does not support, or of malformed length, returns ErrDatabaseError when the table has two or more fields, and an answer with all attributes empty and mask 0 (no error) when it has one.", "quantifier": "all row lists and all uncovered addresses", "why_tests_cant": "absence must hold for every uncovered address", "anchors": ["db/format/ipdb/reader.go:reader.search", "db/format/ipdb/querier.go:querier.QueryInternal", "db/format/ipdb/reader.go:reader.decodeInfo"]}
{"id": "C14", "title": "Overlapping rows: the first row keeps the addresses it was inserted for", "statement": "Packing an arbitrary (overlapping) row list to .ipdb behaves like processing rows in order: a row nested inside or enclosing an already accepted row is dropped, a row with exactly the same network replaces the earlier record, every other row is accepted; a query answers from the accepted rows.", "quantifier": "all insertion sequences", "why_tests_cant": "every interleaving of nested prefixes", "anchors": ["db/format/ipdb/writer.go:Writer.insert", "db/format/ipdb/writer.go:Writer.Nodes"]}
{"id": "C15", "title": "The 14-bit IPv4 acceleration table never changes an answer", "statement": "For every ipdb file the reader accepts and every IPv4 address, the lookup through the 2^14-entry table gives the same node, prefix length and error as the plain bit-by-bit walk of the trie.", "quantifier": "all accepted files (any bytes) and all IPv4 addresses", "why_tests_cant": "arbitrary file contents times 2^32 addresses", "anchors": ["db/format/ipdb/reader.go:reader.initBitsCache", "db/format/ipdb/reader.go:reader.getCache", "db/format/ipdb/reader.go:reader.setCache", "db/format/ipdb/reader.go:indexToBytes", "db/format/ipdb/reader.go:bytesToIndex", "db/format/ipdb/reader.go:reader.search"]}
{"id": "C16", "title": "BuildCache never changes a query answer", "statement": "After BuildCache with any address list, Query returns for every address the same record, mask and success/failure as before it.", "quantifier": "all accepted files, all warm-up lists, all addresses", "why_tests_cant": "the cache is keyed by node and shared by all later queries", "anchors": ["db/format/ipdb/querier.go:querier.BuildCache", "db/format/ipdb/querier.go:querier.QueryInternal", "db/query/query.go:NewDbFromBytes"]}
{"id": "C17", "title": "A query answer holds for the whole returned network", "statement": "If Query(ip) returns (info, mask) then Query of any address of the same family that agrees with ip on the first mask bits returns the same info and mask; the only exception, on any file that opens, is the empty answer with mask 0 that a file with one field gives when the lookup fails.", "quantifier": "all accepted ipdb files, all addresses in the network", "why_tests_cant": "a /8 answer makes a claim about 2^24 addresses", "anchors": ["db/format/ipdb/reader.go:reader.find0", "db/format/ipdb/querier.go:querier.Query", "db/query/query.go:Db.Query"]}
{"id": "C18", "title": "4-byte and 16-byte forms of an IPv4 address are interchangeable", "statement": "Query(ip) and Query(ip.To16()) return the same result for every IPv4 address; QueryU32(x) equals Query of the address whose big-endian value is x.", "quantifier": "all files and all IPv4 addresses", "why_tests_cant": "all 2^32 addresses", "anchors": ["db/format/ipdb/reader.go:reader.find0", "db/query/query.go:Db.QueryU32"]}
{"id": "C19", "title": "A truncated ipdb file is never accepted", "statement": "If a packed .ipdb file is cut at any byte position before its end (crash while writing), opening it never succeeds.", "quantifier": "all packed files and all cut positions", "why_tests_cant": "every crash point of every file", "anchors": ["db/format/ipdb/writer.go:Writer.Save", "db/format/ipdb/reader.go:newReaderFromBytes", "db/convert/packer.go:PackFile"]}
{"id": "C20", "title": "A packed ipdb is always accepted and reports the packed version data", "statement": "Opening a file produced by pack succeeds and VersionInfo reports the packed IP type and extra info, the packed version string when it is non-empty, and language CN.", "quantifier": "all data sets with at least one field", "why_tests_cant": "sizes, counts and offsets must agree for every data set", "anchors": ["db/format/ipdb/writer.go:Writer.Save", "db/format/ipdb/fields.go:buildMeta", "db/format/ipdb/fields.go:ipVersion", "db/format/ipdb/fields.go:MetaData.IpType", "db/format/ipdb/reader.go:reader.version"]}
{"id": "C21", "title": "Equal records are stored once", "statement": "The data section of a packed .ipdb contains exactly one copy of each distinct accepted record, in order of first use; its size is the sum over distinct records of 2 plus the record length.", "quantifier": "all insertion sequences", "why_tests_cant": "all histories", "anchors": ["db/format/ipdb/writer.go:Writer.Fields"]}
{"id": "C22", "title": "Which bytes opened as ipdb can crash the reader", "statement": "For every byte string, opening it as .ipdb, warming it up and querying any address returns a value or an error, never a panic, provided the metadata it declares fits the body: a node table inside the body, a count and columns that are not negative, no record ending at the very end of the body. Each of these is needed: for each there is a file violating only it that crashes. Files below four bytes are refused. Packed files never crash.", "quantifier": "all byte strings, all addresses", "why_tests_cant": "all corrupt files", "anchors": ["db/format/ipdb/reader.go:newReaderFromBytes", "db/format/ipdb/reader.go:reader.resolve", "db/format/ipdb/reader.go:reader.readNode"]}
{"id": "C23", "title": "The error of a failed ipdb lookup", "statement": "On every packed file the lookup used by dumps returns ErrIPFormat for malformed addresses, ErrNoSupportIPv4/ErrNoSupportIPv6 for unsupported families and ErrDataNotExists for addresses without a record; Query never reports any of these: its only error is ErrDatabaseError.", "quantifier": "all files and addresses", "why_tests_cant": "requires every failing address of every file", "anchors": ["db/format/ipdb/querier.go:querier.QueryInternal", "db/format/ipdb/reader.go:reader.find0"]}
{"id": "C24", "title": "Dumping tiles the whole address space", "statement": "If a dump succeeds, the dumped networks are in ascending order, start at the first address of the family, each starts right after the previous one ends, and the last one ends at the last address: every address is in exactly one dumped row.", "quantifier": "all databases whose lookup returns a network containing the asked address", "why_tests_cant": "walks up to 2^128 addresses", "anchors": ["db/field/export/export.go:BuildIPData", "db/format/ipdb/dumper.go:dump"]}
{"id": "C25", "title": "Dumped values agree with lookups", "statement": "In a successful dump, the row covering an address carries exactly the values that exporting the record found at that address gives.", "quantifier": "all databases and all addresses", "why_tests_cant": "all addresses of all databases", "anchors": ["db/field/export/export.go:BuildIPData", "db/format/ipdb/reader.go:reader.findMap"]}
{"id": "C26", "title": "The dump loop terminates", "statement": "Dumping terminates for every database whose lookup returns a network containing the asked address in the asked address length.", "quantifier": "all databases", "why_tests_cant": "termination for all databases", "anchors": ["db/field/export/export.go:BuildIPData"]}
{"id": "C27", "title": "Converting ipdb to ipdb preserves every answer", "statement": "Dumping a packed single-family .ipdb whose rows tile the address space and packing the dump again gives a database that answers every query with the same record.", "quantifier": "all complete row lists and all addresses", "why_tests_cant": "composition over all data sets", "anchors": ["db/format/ipdb/dumper.go:dump", "db/format/ipdb/packer.go:pack", "db/convert/dumper.go:DumpFile", "db/convert/packer.go:PackFile"]}
{"id": "C28", "title": "Which families a dump covers", "statement": "A dump of an .ipdb database that is not marked IPv6-only has no row for any IPv6 address, whatever records it holds: the IPv6 part of a database with both families is left out (and its IPv4 part is complete, C24).", "quantifier": "all dual-family databases", "why_tests_cant": "all databases", "anchors": ["db/field/export/export.go:BuildIPData"]}
{"id": "C29", "title": "Export rules: default fields, conditions and restrictions", "statement": "Every non-empty text is a rule: its first part (up to the first '|') lists the exported fields, and each further part either is the text of exactly one well-formed condition group or changes nothing. Export returns one value per field; each value is the record's value of that field, or empty if the field is missing or some matching condition group (evaluated in order on the values left so far) does not list it (of a field named twice only the first position is kept); an unmatched group changes nothing; '!' negates and '/' separates alternatives.", "quantifier": "all rules, field maps and records", "why_tests_cant": "all rules times all records", "anchors": ["db/field/export/export.go:ParseRule", "db/field/export/export.go:Exporter.Export", "db/field/export/export.go:_Filter.extract", "db/field/export/export.go:_Filter.match", "db/field/export/export.go:Exporter.remapKey", "db/field/export/export.go:Select"]}
{"id": "C30", "title": "Export never invents data", "statement": "Every exported value is either empty or the record's value for that field, and the number of values always equals the number of fields of the rule.", "quantifier": "all rules and records", "why_tests_cant": "all rules times all records", "anchors": ["db/field/export/export.go:Exporter.Export"]}
{"id": "C31", "title": "The documented default rule does what the README says", "statement": "With the default rule, a record of a country other than 中国 keeps only country and continent; a 台湾/中国台湾 record keeps only country, province, continent, district; every other Chinese record keeps all seven fields.", "quantifier": "all records", "why_tests_cant": "all records", "anchors": ["db/field/export/export.go:DefaultRule", "README.md"]}
{"id": "C32", "title": "Merging neighbouring networks preserves every lookup", "statement": "MergeNearNetwork leaves, for every address, the record found by scanning the rows unchanged, and records the new row count in the version.", "quantifier": "all non-empty row lists (sorted or not, overlapping or not) and all addresses", "why_tests_cant": "all row lists times 2^128 addresses", "anchors": ["db/field/operate/replace.go:MergeNearNetwork", "ipnet/range.go:Range.JoinIPNet", "ipnet/range.go:Range.IPNets"]}
{"id": "C33", "title": "Merging is idempotent", "statement": "Applying MergeNearNetwork a second time changes nothing.", "quantifier": "all non-empty row lists", "why_tests_cant": "all row lists", "anchors": ["db/field/operate/replace.go:MergeNearNetwork"]}
{"id": "C34", "title": "Merging and memip packing crash exactly on a table without rows", "statement": "On every table of well-formed networks aligned with its fields, MergeNearNetwork and the .memip packer give a result, except that they crash when there are no rows.", "quantifier": "all data sets, with and without rows", "why_tests_cant": "edge case at size zero reached through arbitrary pipelines", "anchors": ["db/field/operate/replace.go:MergeNearNetwork", "db/format/memip/packer.go:pack"]}
{"id": "C35", "title": "Name normalisation replaces exactly the listed names", "statement": "ReplaceShortage replaces each value of a normalised field (city, province, isp) by its table entry when there is one and changes nothing else, even when rows share value slices; applying it twice is the same as once.", "quantifier": "all data sets, all sharing patterns between rows", "why_tests_cant": "aliasing between rows and table chains", "anchors": ["db/field/operate/replace.go:ReplaceShortage", "db/field/data/load.go:parseData", "db/field/data/city.go", "db/field/data/province.go", "db/field/data/isp.go"]}
{"id": "C36", "title": "TrimAsnIspDup only moves minor ISPs onto a main ISP with the same ASN", "statement": "TrimAsnIspDup changes only isp values; rows of the four main ISPs keep theirs; a changed row gets a main ISP that has a row with the same ASN; a row whose ASN no main-ISP row has is unchanged.", "quantifier": "all data sets, all map iteration orders", "why_tests_cant": "map iteration order is random", "anchors": ["db/field/operate/replace.go:TrimAsnIspDup", "db/field/operate/replace.go:asnMatchIsp"]}
{"id": "C37", "title": "When TrimAsnIspDup is deterministic", "statement": "All runs of TrimAsnIspDup on the same data give the same result, whatever orders Go iterates its maps in, exactly if no row without a main ISP has an AS number shared by rows of two different main ISPs.", "quantifier": "all data sets and all pairs of map iteration orders", "why_tests_cant": "map iteration order is random per run", "anchors": ["db/field/operate/replace.go:asnMatchIsp"]}
{"id": "C38", "title": "AttachDistrict sets the district of the province", "statement": "After AttachDistrict on data with a province field, the district value of every row is the table district of its province (empty if the province is empty or unlisted), all other values are unchanged, also when rows share value slices; every province name produced by normalisation has a district.", "quantifier": "all data sets, all sharing patterns", "why_tests_cant": "aliasing through append", "anchors": ["db/field/operate/district.go:AttachDistrict", "db/field/operate/district.go:provinceDistrict"]}
{"id": "C39", "title": "When operations keep rows aligned with the field list", "statement": "If every row has one value per field before ReplaceShortage, TrimAsnIspDup, MergeNearNetwork or ReplaceLineByCidr, so it has afterwards; after AttachDistrict exactly if there are no rows or there was a province or a district field; after AttachLineByCidr exactly if there are no rows or there was a country or a line field; after AttachLineByAsn exactly if there is no asn field, or there was a line field, or the table of lines has the first value of every row.", "quantifier": "all data sets and operation sequences", "why_tests_cant": "all sequences of operations", "anchors": ["db/field/operate/district.go", "db/field/operate/line.go", "db/field/operate/replace.go"]}
{"id": "C40", "title": "AttachLineByCidr and shared values", "statement": "After AttachLineByCidr each row carries the (normalised) line that the line database reports for the first address of its network if its country is 中国, and an empty line otherwise; nothing else changes. Where rows share one value slice in memory and it is written in place, they all carry the line of the last of them.", "quantifier": "all data sets, all line databases, all sharing patterns", "why_tests_cant": "aliasing between rows that share a value slice", "anchors": ["db/field/operate/line.go:AttachLineByCidr", "db/field/operate/line.go:queryLine"]}
{"id": "C41", "title": "ReplaceLineByCidr and shared values", "statement": "After ReplaceLineByCidr each row whose country is 中国 and whose network has a non-empty line has that line as isp; all other values are unchanged. Rows that share one value slice in memory all get the line of the last of them that has one.", "quantifier": "all data sets, line databases and sharing patterns", "why_tests_cant": "aliasing between rows created by MergeNearNetwork", "anchors": ["db/field/operate/line.go:ReplaceLineByCidr"]}
{"id": "C42", "title": "Line names are normalised to the three carriers", "statement": "The line attached for a network is empty, 电信, 联通 or 移动: the first '/'-separated part, with 铁通 mapped to 移动 and every other non-empty name to 电信.", "quantifier": "all line strings", "why_tests_cant": "all strings", "anchors": ["db/field/operate/line.go:queryLine"]}
{"id": "C43", "title": "When packing one output does not change the next output", "statement": "When one data set is written to several outputs, each output up to and including the first .scan output equals the one obtained by writing it alone, and each later one equals what is obtained by writing alone the data set with underscores for the commas in the values, provided no field is another spelling of continent; so without commas, or without .scan outputs, the outputs do not influence each other. An .ipdb output before a .scan output changes it when a field is another spelling of continent.", "quantifier": "all data sets and output orders", "why_tests_cant": "packers receive a shared mutable data set", "anchors": ["db/format/plain/packer.go:replaceComma", "db/format/ipdb/writer.go:Writer.insert", "cmd/converter/main.go:main"]}
{"id": "C44", "title": "scan text round trip", "statement": "Packing rows to .scan and dumping the text with a rule selecting the same fields gives back the same networks and the same values with ',' replaced by '_'.", "quantifier": "all row lists whose values contain no tab/newline, fields without comma, lines under 64 KiB, and in which only the last row reaches the last address of its family (rows after such a row are dropped)", "why_tests_cant": "all texts", "anchors": ["db/format/plain/packer.go:pack", "db/format/plain/dumper.go:newDumper", "db/format/plain/dumper.go:traversal.Dump", "db/format/plain/dumper.go:traversal.parseLine"]}
{"id": "C45", "title": "scan dump without a rule keeps fields and networks, but no values", "statement": "Dumping a .scan text with an empty rule yields the fields of the text, the version and the networks of the dump with any rule, and rows without values.", "quantifier": "all scan files", "why_tests_cant": "all files", "anchors": ["db/format/plain/dumper.go:traversal.Dump"]}
{"id": "C46", "title": "What a truncated scan file gives", "statement": "A .scan file cut anywhere before its end never gives a wrong row: dumping it crashes when the cut is before the version or inside the mark of the field line, fails when the cut is inside the version or inside a row before its last comma, and otherwise gives the rows before the cut, of which only the last one may have its last value shortened (and no rows at all when the cut is in the header); when a row before the cut reaches the end of its address family the result is that of the whole file. So a cut at a line end or inside a last value goes unnoticed.", "quantifier": "all cut positions", "why_tests_cant": "every crash point", "anchors": ["db/format/plain/dumper.go:newDumper"]}
{"id": "C47", "title": "memip pack then dump preserves coverage and normalised fields", "statement": "Packing IPv4 rows to .memip and dumping the text assigns to every address the converted view fields of the row covering it (city taken from the first row of a merged run).", "quantifier": "all non-empty IPv4 row lists whose converted values contain no '-', space or newline", "why_tests_cant": "all row lists and addresses", "anchors": ["db/format/memip/packer.go:pack", "db/format/memip/packer.go:covertValues", "db/format/memip/dumper.go:parseLine", "db/format/memip/dumper.go:traversal.Dump"]}
{"id": "C48", "title": "memip view fields follow the documented defaults", "statement": "covertValues yields six fields: missing, empty or 保留* values become 默认, continents codes become names, ISPs other than 电信/联通/移动 become 其他, and the district of 香港/澳门/台湾 is 默认.", "quantifier": "all values and field orders", "why_tests_cant": "all values", "anchors": ["db/format/memip/packer.go:covertValues", "db/format/memip/packer.go:fieldOffsets"]}
{"id": "C49", "title": "What dumping any memip text gives", "statement": "Dumping a .memip text returns an error exactly when some line does not have three parts separated by single spaces, all lines before it can be read and none of them reaches the last address of all; it crashes exactly when the text has no line, or when such a line has three parts but its bounds are not two addresses (or two 32-bit numbers); in every other case it succeeds and its rows are those of the lines up to the first that reaches the last address, each line split into the networks of its range. A range whose end lies below its start is accepted silently, as the largest network that begins at its start.", "quantifier": "all texts", "why_tests_cant": "all texts, well formed or not", "anchors": ["db/format/memip/dumper.go:parseLine", "db/format/memip/dumper.go:traversal.Dump", "ipnet/range.go:Range.IPNets"]}
{"id": "C50", "title": "awdb node records of 24, 28 and 32 bits are read back exactly", "statement": "For each record size, reading the left/right record of a node laid out as the format prescribes returns the written value, for every node position and every value that fits.", "quantifier": "all record values and positions", "why_tests_cant": "2^28/2^32 values incl. the shared nibble", "anchors": ["db/format/awdb/node.go"]}
{"id": "C51", "title": "The awdb decoder inverts the documented encoding", "statement": "Decoding the encoding of any value (maps, arrays, strings, byte strings, unsigned integers, booleans, with all size classes) into an untyped target returns that value and the offset just after it.", "quantifier": "all values up to the nesting limit", "why_tests_cant": "all values", "anchors": ["db/format/awdb/decoder.go:decoder.decode", "db/format/awdb/decoder.go:decoder.decodeCtrlData", "db/format/awdb/decoder.go:decoder.sizeFromCtrlByte", "db/format/awdb/decoder.go:decoder.decodeMap", "db/format/awdb/decoder.go:decoder.decodeSlice"]}
{"id": "C52", "title": "The awdb decoder never reads outside its buffer", "statement": "Decoding arbitrary bytes at any offset into an untyped target returns a value or an error, never an out-of-range panic, unless the bytes hold an endless chain of pointers (which, starting at a map key, overflows the stack).", "quantifier": "all byte strings and offsets", "why_tests_cant": "all corrupt databases", "anchors": ["db/format/awdb/decoder.go"]}
{"id": "C53", "title": "When the awdb decoder terminates", "statement": "Decoding arbitrary bytes terminates, with a bound on the number of calls linear in the buffer, unless they hold an endless chain of pointers; a key that starts such a chain never returns. Skipping a value always terminates.", "quantifier": "all byte strings and offsets", "why_tests_cant": "pointer cycles", "anchors": ["db/format/awdb/decoder.go:decoder.decodeKey", "db/format/awdb/decoder.go:decoder.decode", "db/format/awdb/decoder.go:decoder.nextValueOffset"]}
{"id": "C54", "title": "An awdb answer holds for the whole returned network", "statement": "If LookupNetwork(ip) returns network/k then every address of the same family agreeing on the first k bits gets the same network and record.", "quantifier": "all trees and addresses", "why_tests_cant": "all addresses of a network", "anchors": ["db/format/awdb/reader.go:Reader.lookupPointer", "db/format/awdb/reader.go:Reader.traverseTree", "db/format/awdb/reader.go:Reader.cidr", "db/format/awdb/reader.go:Reader.LookupNetwork"]}
{"id": "C55", "title": "Networks enumerates exactly the networks with data", "statement": "Iterating Networks to the end without error yields each network that has a record exactly once, in address order, and looking up any address of it gives the same record; an address with a record lies in exactly one yielded network.", "quantifier": "all search trees", "why_tests_cant": "all trees", "anchors": ["db/format/awdb/traverse.go:Networks.Next", "db/format/awdb/traverse.go:Reader.NetworksWithin"]}
{"id": "C56", "title": "What querying an awdb database gives", "statement": "awdb Query fails with an error exactly when the lookup of the address fails with that error; it answers exactly when the lookup finds a map of texts, with the texts stored under the keys country, province, city, isp, asnumber, continent and line and the prefix length of the network; and it crashes exactly when the lookup crashes or finds no record, a record that is not a map, or a map with a value that is not a text (in particular for every address without a record).", "quantifier": "all databases and addresses", "why_tests_cant": "all addresses and records of every shape", "anchors": ["db/format/awdb/querier.go:querier.Find", "db/format/awdb/querier.go:querier.Query", "db/format/awdb/dumper.go:traversal.find"]}
{"id": "C57", "title": "awdb query and awdb dump agree on every field but the AS number", "statement": "For every record, every exported attribute but the AS number that Query returns equals the value a dump exports for the same address; Query takes the AS number from the key asnumber, a dump from the key asn, so that a record with only the former dumps none.", "quantifier": "all records", "why_tests_cant": "all records", "anchors": ["db/format/awdb/querier.go:querier.Query", "db/format/awdb/fields.go:CommonFieldsMap"]}
{"id": "C58", "title": "When an awdb file is opened or rejected without crashing", "statement": "FromBytes returns a reader or an error, and lookups in what it returns a value or an error, on every byte string of at least 2000 bytes whose metadata and data hold no endless chain of pointers and whose node count times record size fits 64 bits. Every shorter byte string crashes it, and a node table size that wraps can.", "quantifier": "all byte strings", "why_tests_cant": "all corrupt files", "anchors": ["db/format/awdb/reader.go:FromBytes"]}
{"id": "C59", "title": "Format registry", "statement": "The format used for an extension is the one registered last for that extension and kind; unregistered extensions give ErrUnsupportedFormat; registering one kind never affects another.", "quantifier": "all registration histories", "why_tests_cant": "all histories", "anchors": ["db/format/formats.go", "db/query/query.go:NewDbFromBytes", "db/convert/packer.go:PackWriter"]}
{"id": "C60", "title": "How the Java reader differs from the Go reader", "statement": "For every packed ipdb and every covered address that both take, the Java reader returns the attributes of the Go reader, except that its line is the value of the last of the asn and line columns.", "quantifier": "all packed files and covered addresses", "why_tests_cant": "cross-language equivalence over all files", "anchors": ["java/src/main/java/qiniu/uip/db/format/ipdb/Reader.java:query", "java/src/main/java/qiniu/uip/db/format/ipdb/Reader.java:findNode", "java/src/main/java/qiniu/uip/db/format/ipdb/Reader.java:resolveNode"]}
{"id": "C61", "title": "How the Rust reader differs from the Go reader", "statement": "For every packed ipdb and every covered address that both take, the Rust reader returns the attributes of the Go reader, except that a continent not stored as one of the known codes is empty.", "quantifier": "all packed files and covered addresses", "why_tests_cant": "cross-language equivalence over all files", "anchors": ["rust/src/formats/ipdb/reader.rs:find", "rust/src/formats/ipdb/reader.rs:find_node", "rust/src/formats/ipdb/reader.rs:resolve_node", "rust/src/formats/ipdb/reader.rs:build_info"]}
{"id": "C62", "title": "Addresses survive printing and parsing", "statement": "Parsing the printed form of any IPv4 or IPv6 address or network gives the same address or network.", "quantifier": "all addresses and prefix lengths", "why_tests_cant": "2^32 and 2^128 addresses times all lengths", "anchors": ["db/format/plain/packer.go:pack", "db/format/plain/dumper.go:traversal.parseLine"]}
{"id": "C63", "title": "An awdb file answers with the record its tree prescribes", "statement": "For every well-formed awdb file (node table, data section, metadata section) and every address it can be asked for, LookupNetwork returns the record reached by following the bits of the address, no record if they lead to the empty mark, an error if they lead nowhere, with a network that contains the address and whose prefix length is the number of bits followed; Query returns the attributes of a record of strings.", "quantifier": "all well-formed files, record sizes, IP versions, addresses", "why_tests_cant": "all trees, data sections and addresses", "anchors": ["db/format/awdb/reader.go:FromBytes", "db/format/awdb/reader.go:Reader.LookupNetwork", "db/format/awdb/reader.go:Reader.traverseTree", "db/format/awdb/reader.go:Reader.cidr", "db/format/awdb/querier.go:querier.Query"]}
{"id": "C64", "title": "The converter writes a database that answers with the converted table", "statement": "Running the converter on an input that dumps to a table, with an .ipdb output, succeeds, changes only the output file, and opening the output answers every address that has a row with that row's record, names normalised, carrier moved by AS number, district added, for a network on which this is the record everywhere; all other addresses are errors.", "quantifier": "all inputs, tables, rules, map iteration orders and addresses", "why_tests_cant": "all tables, orders and addresses", "anchors": ["cmd/converter/main.go:main", "db/convert/dumper.go:DumpFile", "db/convert/packer.go:PackFile", "db/query/query.go:NewDb"]}
{"id": "C65", "title": "The converter with a line database", "statement": "As C64 with -line: Chinese records also carry the line of the first address of their network.", "quantifier": "all inputs, tables, line databases and addresses", "why_tests_cant": "all tables and addresses", "anchors": ["cmd/converter/main.go:main", "db/field/operate/line.go:AttachLineByCidr"]}
{"id": "C66", "title": "What a failed conversion leaves behind", "statement": "If the converter fails or crashes, either no file has changed, or it stopped at one of its outputs: then that output is left empty (unchanged if it could not be created), except that a .memip output at which it crashed may hold the complete lines of the first rows; the outputs before it have been written completely, and every other file is as it was.", "quantifier": "all inputs, outputs and failures", "why_tests_cant": "every crash point", "anchors": ["cmd/converter/main.go:main", "db/convert/packer.go:PackFile"]}
{"id": "C67", "title": "The HTTP server answers with the record of the address in the path", "statement": "A request for /<address> is answered with status 200 and the record of the address, and with 404 when the text is no address or it has no record; no request crashes the handler.", "quantifier": "all packed databases, addresses and request texts", "why_tests_cant": "all addresses and texts", "anchors": ["cmd/server/server.go", "db/query/query.go:Db.QueryStr"]}
{"id": "C68", "title": "What the Java reader answers", "statement": "A packed ipdb below 2 GiB opens in the Java reader, and every address of an accepted family and length that has a row gets exactly the attributes of that row (null for an attribute without a column, the continent spelled out, the line from the last column named asn or line); addresses of another family or length are rejected; the warm-up cache changes no answer, on any file.", "quantifier": "all packed files, warm-up lists and addresses", "why_tests_cant": "all files, all 2^32 / 2^128 addresses, all cache contents", "anchors": ["java/src/main/java/qiniu/uip/db/format/ipdb/Reader.java:Reader", "java/src/main/java/qiniu/uip/db/format/ipdb/Reader.java:query", "java/src/main/java/qiniu/uip/db/format/ipdb/Reader.java:buildCache", "java/src/main/java/qiniu/uip/db/format/ipdb/Reader.java:findNode", "java/src/main/java/qiniu/uip/db/format/ipdb/Reader.java:resolveNode", "java/src/main/java/qiniu/uip/db/Query.java:create"]}
{"id": "C69", "title": "What the Rust reader answers", "statement": "A packed ipdb below 2 GiB opens in the Rust reader, and every address of an accepted family and length that has a row gets exactly the attributes of that row (the continent only if it is stored as a code); addresses of another family or length are rejected; asking for a 32-bit integer is asking for its four bytes.", "quantifier": "all packed files and addresses", "why_tests_cant": "all files, all addresses", "anchors": ["rust/src/formats/ipdb/reader.rs:find", "rust/src/formats/ipdb/reader.rs:find_node", "rust/src/formats/ipdb/reader.rs:resolve_node", "rust/src/formats/ipdb/reader.rs:build_info", "rust/src/query.rs:query_u32"]}
{"id": "C70", "title": "Addresses without a row in the Java and Rust readers", "statement": "In packed files below 512 KiB, an address without a row is never reported as missing: the Java reader answers with empty attributes or throws an unchecked exception if a column after the first is the continent, the Rust reader panics if a column after the first has a name it knows and answers with empty attributes otherwise.", "quantifier": "all packed files below 512 KiB and uncovered addresses", "why_tests_cant": "all files, all addresses", "anchors": ["java/src/main/java/qiniu/uip/db/format/ipdb/Reader.java:find0", "java/src/main/java/qiniu/uip/db/format/ipdb/Reader.java:resolveNode", "rust/src/formats/ipdb/reader.rs:find_node", "rust/src/formats/ipdb/reader.rs:build_info"]}
{"id": "C71", "title": "Versions reported by the Java and Rust readers", "statement": "Both readers report the address family, build time and extra information that were packed; Java reports the packed version, or a text made of the build time if it is empty, Rust the packed version; hasIpV4/hasIpV6 tell which families are served.", "quantifier": "all packed files", "why_tests_cant": "all versions", "anchors": ["java/src/main/java/qiniu/uip/db/format/ipdb/Ipdb.java:version", "java/src/main/java/qiniu/uip/db/VersionInfo.java", "rust/src/formats/ipdb.rs:version", "rust/src/data.rs:VersionInfo"]}
{"id": "C72", "title": "Asking the Java reader by text", "statement": "query(String) takes a text with a colon behind its first character for an IPv6 address, another text with a dot behind its first character for an IPv4 address, and refuses all others; it answers as query(byte[]) of the address the parser finds, and refuses a text the parser does not accept. So texts such as ::1 are refused.", "quantifier": "all texts", "why_tests_cant": "all strings", "anchors": ["java/src/main/java/qiniu/uip/db/Query.java:query"]}
{"id": "C73", "title": "Halves of a 128-bit address", "statement": "Uint64ToIP2(h,l) is the 16-byte address whose big-endian value is h*2^64+l, every 16-byte address is of this form for exactly one pair, and Uint64ToIP(h) is the address with the low half zero.", "quantifier": "all pairs of uint64", "why_tests_cant": "2^128 pairs", "anchors": ["ipnet/ip.go:Uint64ToIP2", "ipnet/ip.go:Uint64ToIP"]}
{"id": "C74", "title": "MaskLess orders networks by size", "statement": "For networks with contiguous masks MaskLess(a,b) holds exactly when a has fewer address bytes than b, or as many and fewer addresses than b; it is a strict weak order, and a network strictly inside another of the same family is always before it.", "quantifier": "all pairs and triples of networks", "why_tests_cant": "pairs of 128-bit networks", "anchors": ["ipnet/ipnet.go:MaskLess"]}
{"id": "C75", "title": "IsFirstIP recognises the lowest address", "statement": "IsFirstIP is true exactly of 0.0.0.0 (asked for IPv4) and of :: (asked for IPv6).", "quantifier": "all addresses", "why_tests_cant": "2^128 addresses", "anchors": ["ipnet/ip.go:IsFirstIP"]}
{"id": "C76", "title": "Dotted quads as integers", "statement": "IPv4StrToUint32 of the text of an IPv4 address is the number of the address, and 0 for every text that is no IPv4 address.", "quantifier": "all strings", "why_tests_cant": "all strings", "anchors": ["ipnet/ip.go:IPv4StrToUint32"]}
{"id": "C77", "title": "PrefixSameLength and SuffixZeroLength", "statement": "PrefixSameLength of two addresses of one family is the number of leading bits on which they agree; SuffixZeroLength is the number of trailing zero bits.", "quantifier": "all pairs of addresses", "why_tests_cant": "2^256 pairs", "anchors": ["ipnet/range.go:PrefixSameLength", "ipnet/range.go:SuffixZeroLength"]}
{"id": "C78", "title": "Sorting ranges", "statement": "Less on Ranges compares start addresses numerically, Swap exchanges two entries and keeps the others. So whatever exchanges a sorting procedure makes, it keeps every range as often as it was there, and once no range is Less than the one before it, the ranges are ordered by start.", "quantifier": "all lists of ranges", "why_tests_cant": "all lists", "anchors": ["ipnet/range.go:Ranges.Less", "ipnet/range.go:Ranges.Swap", "ipnet/range.go:Ranges.Len"]}
{"id": "C79", "title": "The self checks pass exactly when the probes have the expected country", "statement": "CheckV4 passes exactly when 8.8.8.8 is in the United States and 119.29.29.29 in China, CheckV6 exactly when the two IPv6 probes are in the United States; on packed tables neither crashes.", "quantifier": "all databases", "why_tests_cant": "all tables", "anchors": ["db/query/query.go:Db.CheckV4", "db/query/query.go:Db.CheckV6"]}
{"id": "C80", "title": "The reported families are those served", "statement": "HasIpV4/HasIpV6/IsIpV4/IsIpV6/IsIpAll of the version of a packed ipdb say which families it was packed for, and an address of a family it lacks is refused with the error for that family.", "quantifier": "all packed files and addresses", "why_tests_cant": "all files and addresses", "anchors": ["db/inf/db_inf.go:VersionInfo.HasIpV4", "db/inf/db_inf.go:VersionInfo.HasIpV6", "db/inf/db_inf.go:VersionInfo.IsIpAll"]}
{"id": "C81", "title": "Columns of an ipdb answer", "statement": "For every table packed as ipdb and every address of a row, the map of columns looked up in the packed file has exactly the published names of the table's fields, and each holds the row's value (the last column of a name wins), except that a continent code in the continent column is spelled out and a spelled out continent in a column called Continent (any case, unless it is the continent column) is abbreviated.", "quantifier": "every table, row, column and address", "why_tests_cant": "there are unboundedly many rows and column sets; a test fixes one", "anchors": ["db/format/ipdb/reader.go:reader.findMap", "db/format/ipdb/reader.go:reader.decodeInfo", "db/format/ipdb/fields.go:covertFields"]}
{"id": "C82", "title": "NetworksWithin enumerates the networks with data in a network", "statement": "For every awdb database and every network of its family, iterating NetworksWithin ends, and yields in address order and without overlap networks inside the given one (or the single network containing it, reported with the given address), such that an address of the given network has a record exactly if it lies in a yielded network, and that record is the yielded one. An IPv4 network given to an IPv6 database means ::ffff:a.b.c.d, where IPv4 lookups do not look.", "quantifier": "every awdb file and every network of its family (4 bytes for IPv4, 16 for IPv6 databases)", "why_tests_cant": "tests walk a few networks of one file; the claim is about every tree and every network", "anchors": ["db/format/awdb/traverse.go:Reader.NetworksWithin", "db/format/awdb/traverse.go:Networks.Next"]}
{"id": "C83", "title": "Lookup, LookupOffset and Decode agree with LookupNetwork", "statement": "For every awdb file and address, Lookup gives the record LookupNetwork gives; LookupOffset answers NotFound exactly if there is no record; otherwise decoding the offset gives that record; equal offsets mean equal records, so records may be cached by offset; decoding NotFound is an error.", "quantifier": "every awdb file and every address", "why_tests_cant": "a test compares finitely many addresses; a cache keyed by offsets relies on the claim for all", "anchors": ["db/format/awdb/reader.go:Reader.Lookup", "db/format/awdb/reader.go:Reader.LookupOffset", "db/format/awdb/reader.go:Reader.Decode"]}
{"id": "C84", "title": "Version of an awdb file", "statement": "For every well formed awdb file the reported version has the family named by the metadata (both if it names neither), the number of nodes, the build time, the database type with its prefix and the languages.", "quantifier": "every well formed awdb file", "why_tests_cant": "the metadata values are unbounded; a test reads one file", "anchors": ["db/format/awdb/reader.go:Reader.version", "db/format/awdb/fields.go:Metadata.IpType"]}
{"id": "C85", "title": "Size of a packed ipdb file", "statement": "A packed file has exactly one tree node for the root and for every proper prefix of a kept row, each distinct record once, and the version reported by a reader counts those nodes; so a table of n rows makes at most 1 + 127 n nodes.", "quantifier": "every table", "why_tests_cant": "the bound must hold for every set of networks", "anchors": ["db/format/ipdb/writer.go:Writer.Nodes", "db/format/ipdb/writer.go:Writer.Save", "db/format/ipdb/reader.go:reader.version"]}
{"id": "C86", "title": "Values of any length after packing", "statement": "Query of a packed ipdb answers the values of the row covering the address when they take at most 65535 bytes with separators; of a longer row it answers what is left of it when it is cut to its length modulo 65536, and ErrDatabaseError if that has too few columns. Packing never fails for long values.", "quantifier": "every table and address", "why_tests_cant": "values are unbounded texts; a test uses short ones", "anchors": ["db/format/ipdb/writer.go:Writer.Fields", "db/format/ipdb/writer.go:IntToBinaryBE", "db/format/ipdb/reader.go:reader.resolve"]}
{"id": "C87", "title": "What a caller does to an answer can change later answers", "statement": "After a Go ipdb database is opened and warmed up with its built-in address list, for every sequence of queries by any callers, interleaved with assignments of any values to the objects those queries returned, every later query answers as on a freshly opened database, except that an address ending on the same record as a warmed-up address answers with the value last assigned to an answer for that record.", "quantifier": "all files that open, all warm-up lists, all histories of queries and of assignments to earlier answers, all addresses", "why_tests_cant": "Every history of calls and of writes through earlier answers is a different test; the aliasing only shows for addresses that happen to share a cached record", "anchors": ["db/format/ipdb/querier.go:Query", "db/format/ipdb/querier.go:QueryInternal", "db/format/ipdb/querier.go:BuildCache", "db/query/query.go: NewDbFromBytes, Db.Query"]}
{"id": "C88", "title": "What AttachLineByAsn does", "statement": "Without an asn field AttachLineByAsn changes only the version. With asn and line fields, a line is overwritten only by the empty line, where the table gives the empty line for the row's AS number. With asn and no line field, a line field is added and each row is extended by the line of its first value if the table has one, and not extended otherwise. Networks and other values never change.", "quantifier": "all data sets, tables and sharing patterns", "why_tests_cant": "the lookup column and the aliasing of value slices depend on the data set", "anchors": ["db/field/operate/line.go:AttachLineByAsn"]}
{"id": "C89", "title": "A conversion to several outputs writes each as if it were the only one", "statement": "converter -o a,b,…, with or without a line file, of any input, writes every listed output with exactly the bytes a run with that output alone writes, and changes no other file; the first output whose own run fails ends the run the same way: the earlier ones are complete, it is as its own run leaves it (empty, if it could be created; with its first lines, if it is a .memip output at which the run crashed) and the later ones are untouched. This holds when the .scan outputs come last or the input has no value with a comma, and no .ipdb output comes before a .scan output or the input's continent field is spelled continent. Otherwise the outputs after the first .scan output are those of the table with underscores for the commas. The outputs hold the converted table: every .ipdb output answers every address as in C64; a .scan output of a table without line breaks in its values and without a row for the last address of a family, or with its rows in order and nothing after one that ends at 255.255.255.255, dumped again, gives back the converted records with commas replaced; a .memip output gives back the converted view.", "quantifier": "all inputs, tables, output lists and file systems", "why_tests_cant": "the packers change the shared table in place, so the effect depends on the order of outputs and on the values", "anchors": ["cmd/converter/main.go", "db/convert/packer.go:PackFile", "db/format/ipdb/packer.go:pack", "db/format/plain/packer.go:pack"]}
{"id": "C90", "title": "A conversion with a line database: the line of an answer", "statement": "With -line file every Chinese network of the output answers with the (first part of the, normalised) line of the first address of a network with the same record as line, with -lineReplace as carrier when that line is not empty (the carrier is kept only when the own line is empty); everything else as in C64; for every table with a country field, whether or not it already has a line field. The network whose line is used need not be the own one.", "quantifier": "all inputs, tables, line databases, slice capacities", "why_tests_cant": "which rows share a value slice depends on the order of the rows of the input", "anchors": ["cmd/converter/main.go", "db/field/operate/line.go:AttachLineByCidr", "db/field/operate/line.go:ReplaceLineByCidr", "db/field/operate/line.go:queryLine"]}
{"id": "C91", "title": "Merging gives the smallest table, and the same one for equal data", "statement": "For a table whose rows ascend (every ipdb dump, every IPv4 awdb dump), the rows MergeNearNetwork returns are a shortest list of networks giving every address its record, and two such tables with the same record for every address are merged to identical rows.", "quantifier": "all tables with ascending rows, all other lists of networks", "why_tests_cant": "minimality compares with every other table", "anchors": ["db/field/operate/replace.go:MergeNearNetwork", "ipnet/range.go:IPNets", "ipnet/range.go:JoinIPNet"]}
{"id": "C92", "title": "awdb: decoding a record into typed variables", "statement": "Lookup(address, &x) and Decode(offset, &x) fill the variable x, of any Go type and holding anything, in exactly one way, and report an error exactly if the stored value does not fit: numbers are converted to 64 bits and then checked against the range of the variable; strings, byte sequences and arrays (as new slices) replace what was there; a map keeps its old entries, and the stored elements are decoded one after the other through one variable, so that pointers and maps in them are shared; a struct gets the values of the keys in turn, each in the last field with that tag or name, embedded structs from the whole map, other keys skipped and missing keys left alone; pointers are followed and allocated when nil. A uintptr field gets an offset from which Decode yields the field's value. For new variables of types without these peculiarities this is the plain meaning of the stored value. Without a record Lookup leaves x alone.", "quantifier": "all buffers, all values stored in them (any nesting up to 512, with and without pointers), all types of targets built from bool, ints, uints, floats, string, interface{}, big.Int, slices, maps, structs and pointers", "why_tests_cant": "the types and the stored values are both unbounded trees; a test tries a few structs", "anchors": ["db/format/awdb/decoder.go:decode", "db/format/awdb/decoder.go:decodeFromType", "db/format/awdb/decoder.go:indirect", "db/format/awdb/decoder.go:decodeMap", "db/format/awdb/decoder.go:decodeStruct", "db/format/awdb/decoder.go:cachedFields", "db/format/awdb/decoder.go:unmarshalUint", "db/format/awdb/reader.go:Reader.Lookup", "db/format/awdb/reader.go:Reader.Decode"]}
{"id": "C93", "title": "Opening a database by file name", "statement": "A database file is opened by every client according to its name alone: Go opens names ending in .ipdb as ipdb and in .awdb as awdb, Java opens names ending in .ipdb, Rust opens any name as ipdb, each from exactly the bytes of the file, however the operating system hands them out; other names are refused with an error (by Java with an unchecked exception if the name has no dot). A file that cannot be read is an error in Java and Rust and ends a Go program with a panic.", "quantifier": "all file names, all file contents, all ways the reads of a file are split, all packed tables below 2 GiB for the agreement of the three readers", "why_tests_cant": "names and read schedules are unbounded; tests open a few fixed files", "anchors": ["db/query/query.go:NewDb", "db/query/query.go:NewDbFromBytes", "db/format/ipdb/init.go", "db/format/awdb/init.go", "java/src/main/java/qiniu/uip/db/Query.java:create", "java/src/main/java/qiniu/uip/db/format/Formats.java", "java/src/main/java/qiniu/uip/util/File.java:readAll", "rust/src/query.rs:from_file"]}
{"id": "C94", "title": "The command line programs show what the library answers", "statement": "The simple program shows the record of the address given as its second argument, the version if that argument begins with v (no address does), and an error otherwise; the server sends the same record for the path of the same text, the version for /version and 404 otherwise; the Rust program shows the attributes of the row of the address.", "quantifier": "all files, all argument texts, all packed tables", "why_tests_cant": "every text and every database; tests do not run the programs", "anchors": ["cmd/simple/main.go:main", "cmd/server/main.go:main", "cmd/server/server.go:ListenAndServe", "rust/src/bin/query.rs:main"]}
{"id": "C95", "title": "A converted .ipdb database answers with the cleaned answers of the input", "statement": "Convert any .ipdb file the query library opens and that answers every address of its family, with the default rule, without a line file, into an .ipdb file. The conversion succeeds and writes only the output. The output answers exactly the addresses of the family; for each of them the answer is the input's answer reduced by the default rule (outside China only country and continent, no city, carrier or AS number in Taiwan), with its names normalised, the continent spelled out, the district of the province, and a minor carrier replaced by a main carrier that the input gives somewhere with the same AS number (the empty one included). It comes with a network on all of whose addresses the same holds.", "quantifier": "all .ipdb files that open, all addresses of the family, all iteration orders of Go's maps", "why_tests_cant": "The statement ranges over all input files and all addresses; it composes dumping, exporting, normalising, merging, packing, opening and querying, which tests only sample.", "anchors": ["cmd/converter/main.go:main", "db/convert/dumper.go", "db/convert/packer.go", "db/field/export/export.go:BuildIPData", "db/field/operate/replace.go", "db/format/ipdb/packer.go", "db/query/query.go:NewDb"]}
{"id": "C96", "title": "What a converted .awdb database answers", "statement": "Converting an .awdb file that answers every address, with the default rule and no line file: if the file is not IPv6, or it is IPv6, its network for the last address before ::ffff:0:0 reaches past that and two addresses have different cleaned answers, the output answers every address of the family as C95 says, of the input's answers without their AS numbers (the dump looks for the key asn, which awdb records do not have; with one main carrier in China in the file, every address of the output has a main carrier). Otherwise, if 0.0.0.0 is found in an IPv4 network, the output answers exactly the addresses below ::ffff:0:0 that way and refuses every other address with a database error: the IPv4 part and everything above is lost. If 0.0.0.0 is found in an IPv6 network, the conversion never ends.", "quantifier": "all .awdb files that open, all addresses of the family, all iteration orders of Go's maps", "why_tests_cant": "The statement ranges over all input files and all addresses.", "anchors": ["cmd/converter/main.go:main", "db/format/awdb/dumper.go", "db/format/awdb/fields.go:CommonFieldsMap", "db/field/operate/replace.go:TrimAsnIspDup"]}
{"id": "C97", "title": "Loading a table of names", "statement": "Load(key, text) replaces the table of names of one attribute and leaves the tables of all others alone. Afterwards a name is written the way the last line `name<TAB>normal form` for it says (the text's lines may end in CRLF, the last newline may be missing, lines without a tab are ignored), and a name without a line stays as it is. One line of 64 KiB or more empties the whole table. The program starts with what the shipped lists say for cities, provinces and carriers and with nothing for other attributes.", "quantifier": "all texts, all attributes, all names, all earlier tables", "why_tests_cant": "texts and names are unbounded; the shipped tables have hundreds of lines whose effect depends on later lines", "anchors": ["db/field/data/load.go:parseData", "db/field/data/load.go:Load", "db/field/data/load.go:LoadDefault", "db/field/data/city.go", "db/field/data/province.go", "db/field/data/isp.go"]}
{"id": "C98", "title": "Cut and extended ipdb files in the three readers", "statement": "A packed ipdb file with bytes added at its end is refused with a file-size error by the Go, the Java and the Rust reader; cut anywhere, it is refused by the Rust reader with a file-size error and by the Java reader as an invalid database (never a crash).", "quantifier": "all packed files, all added bytes, all cut points", "why_tests_cant": "all files and all cut points", "anchors": ["java/src/main/java/qiniu/uip/db/format/ipdb/Reader.java:Reader", "java/src/main/java/qiniu/uip/db/Query.java:create", "rust/src/formats/ipdb/reader.rs:new", "db/format/ipdb/reader.go:newReaderFromBytes"]}
{"id": "C99", "title": "What the dump of an IPv6 awdb file holds", "statement": "If the network found for ::fffe:ffff:ffff (the address before ::ffff:0:0) reaches past it, the dump ends and its rows cover the whole IPv6 space once, in order, each with the record looked up for its addresses. If that network ends there and 0.0.0.0 has an IPv4 network, the dump ends and its rows cover everything up to ::ffff:255.255.255.255 that way, the IPv4 part by IPv4 networks, and nothing of the rest of the IPv6 space. If 0.0.0.0 is found in an IPv6 network, the dump never ends successfully. (Ending means every record looked up is a map of strings the rule can export.)", "quantifier": "all IPv6 awdb files that open, all rules, any running time", "why_tests_cant": "files and walks of up to 2^128 steps; non-termination", "anchors": ["db/format/awdb/dumper.go", "db/field/export/export.go:BuildIPData", "db/format/awdb/reader.go:Reader.LookupNetwork", "db/format/awdb/reader.go:Reader.cidr"]}
{"id": "C100", "title": "Slice capacities and 64-bit integers do not change the answers of the ipdb reader", "statement": "Opening a packed ipdb from a byte slice succeeds whatever unused capacity the slice has behind its end and whatever bytes are there (os.ReadFile always leaves some), and every query, before and after any warm-up, answers as on a slice without unused capacity, computed with 64-bit wrap-around integers. For any other file the same holds of every call that does not crash without unused capacity. A packed file cut anywhere is refused with a file-size error; only a slice with a capacity below four bytes makes opening crash.", "quantifier": "every byte string and every content of the unused capacity, every address, every warm-up list; for cut files every cut", "why_tests_cant": "Tests read their files one way; the content of the unused capacity and its size depend on how the bytes were obtained", "anchors": ["db/format/ipdb/reader.go:newReaderFromBytes", "db/format/ipdb/reader.go:resolve", "db/format/ipdb/querier.go:Query", "db/query/query.go:NewDb"]}
{"id": "C101", "title": "The metadata of a packed file survives Go's own JSON", "statement": "The metadata of every file packed by ipdb, written with encoding/json and read back with it, is unchanged exactly when the version, the extra texts and the field names are UTF-8; otherwise every byte that is not UTF-8 comes back as U+FFFD. So packing disjoint rows and querying an address inside a row gives that row's information without any assumption on the JSON library. Metadata cut anywhere before its end is refused. Metadata with any number of languages, as a caller of NewWriter may pass, comes back with the same languages if their names are UTF-8; they are written in ascending order, so the bytes do not depend on the order in which a map is walked.", "quantifier": "every metadata value with in-range numbers, every field name including control characters, quotes and invalid UTF-8, every cut", "why_tests_cant": "Round trips in tests use a few ASCII names; escaping, HTML escaping and invalid UTF-8 depend on every byte", "anchors": ["db/format/ipdb/fields.go:MetaData", "db/format/ipdb/writer.go:Save", "db/format/ipdb/reader.go:newReaderFromBytes"]}
{"id": "C102", "title": "The version line of a .scan text survives Go's own JSON", "statement": "The version of a data set is written on one line whatever texts are in it (line ends are escaped), and is read back unchanged exactly as far as its texts are UTF-8, so a .scan text reads back as the rows that were packed without any assumption on the JSON library. A version cut anywhere before its end is refused.", "quantifier": "every version value with in-range numbers and every text in it, every cut of the version", "why_tests_cant": "A line end inside a version text would split the header; tests do not try one", "anchors": ["db/format/plain/packer.go:pack", "db/format/plain/dumper.go:newDumper", "db/inf/db_inf.go:VersionInfo"]}
{"id": "C103", "title": "The HTTP server sends well-formed JSON with exactly the fields found", "statement": "The body of a 200 answer for an address is one JSON object whose members are the non-empty fields of the answer, each with its value (invalid UTF-8 replaced by U+FFFD) and nothing else; different answers of texts have different bodies; the body of /version reads back as the version of the database.", "quantifier": "every answer a database can give, every version, every byte in the values", "why_tests_cant": "Values come from third-party databases and may hold quotes, control characters or broken encodings", "anchors": ["cmd/server/server.go:ListenAndServe", "db/inf/db_inf.go:IpInfo"]}
{"id": "C104", "title": "The version information of a converted database", "statement": "Any conversion of an .ipdb or .awdb file that ends well, with any rule, line file and list of outputs: every .ipdb output below 4 GiB that opens reports the version text, address type and extra information the input reports (texts that are not UTF-8 repaired, a made up text with the date for an empty version text) and the time of the conversion as build time; with a line file the extra information has one entry more, the version of the line file, a dash and its build time. Every .scan output begins with the time and the JSON of that version information, with the build time of the input.", "quantifier": "all inputs, rules, line files and lists of outputs, all earlier files", "why_tests_cant": "every operation and packer handles the version information on its way; the statement ranges over all of them and all inputs", "anchors": ["cmd/converter/main.go:main", "db/field/operate/line.go:AttachLineByCidr", "db/field/operate/line.go:ReplaceLineByCidr", "db/field/operate/replace.go:MergeNearNetwork", "db/format/ipdb/fields.go:buildMeta", "db/format/ipdb/reader.go:version", "db/format/plain/packer.go:pack", "db/field/export/export.go:BuildIPData"]}
{"id": "C105", "title": "Packing rows with any address and mask", "statement": "Packing rows with any 4 or 16 byte address and any mask of at most 16 bytes, one value per field, to ipdb: it never returns an error, it panics exactly when some non-IPv4 row states prefix length 0 (or has a mask whose ones do not come first), and otherwise the file is, byte for byte, that of the networks the rows mean: the network of the stated prefix length around the address (host bits ignored; IPv4 lengths up to 32 count from bit 96; a mask whose ones do not come first means 0.0.0.0/0 on an IPv4 address). Such a network exists for every row and is unique, and every query on the opened file answers from those networks.", "quantifier": "all rows with 4 or 16 byte addresses and masks of at most 16 bytes", "why_tests_cant": "nothing in the API makes a caller pass canonical networks; the statement ranges over all lists of pairs of bytes", "anchors": ["db/format/ipdb/writer.go:insert", "db/format/ipdb/writer.go:Nodes", "db/format/ipdb/packer.go:pack"]}
{"id": "C106", "title": "Queries that run at the same time", "statement": "Any number of goroutines query one opened .ipdb or .awdb database at the same time and read their answers (as the HTTP server does, one goroutine per request), with their memory accesses interleaved in any way: every answer is the one the database gives to that question alone, a goroutine is done after a bounded number of its own steps whatever the others do (11 plus the number of fields for ipdb, 18 for awdb), and no two goroutines ever access the same field of an answer at the same time if one of them writes it.", "quantifier": "all databases, all lists of addresses, all schedules", "why_tests_cant": "the answers of cached records are shared objects and new ones are filled field by field; only a proof covers all interleavings", "anchors": ["db/format/ipdb/querier.go:QueryInternal", "db/format/ipdb/querier.go:Query", "db/format/awdb/querier.go:Query", "cmd/server/server.go:ListenAndServe"]}
{"id": "C107", "title": "Conversions on a full disk, with failing writes, and killed conversions", "statement": "Whatever part of each single write the system accepts and whenever the converter is killed: if it ends without an error, every .ipdb output has exactly the bytes it should have, every .scan output has all its rows (its three header lines may be cut short), and every .memip output the beginnings of its lines; otherwise it has changed nothing, or it has stopped at one output, which holds the beginning of its content, the ones before it being as just described. So each .ipdb output of a conversion is untouched, or complete and answers every address, or it does not open. No other file changes.", "quantifier": "all inputs and output lists, all sequences of write results, all moments of being killed", "why_tests_cant": "every prefix of every write of every output is a crash point", "anchors": ["db/convert/packer.go:PackFile", "cmd/converter/main.go:main", "db/format/ipdb/writer.go:Save", "db/format/plain/packer.go:pack", "db/format/memip/packer.go:pack"]}
{"id": "C108", "title": "An .awdb file behind the query library and the HTTP server", "statement": "A file named .awdb for IPv6 only opens as soon as its bytes do; any other opens exactly if moreover its lookup of 8.8.8.8 finds a record of texts: it is refused with the error of that lookup, and the program crashes if there is no such record. Asked for an address text, the library gives the texts of the record found and the prefix length of its network, an error if the text is no address or the lookup fails with one, and crashes exactly if the lookup does or there is no record of texts. The HTTP server answers /text with 200 and the record, with 404, or crashes the handler of the request, in exactly these cases.", "quantifier": "all files, file names, request paths", "why_tests_cant": "all byte sequences of a file and all texts of a request", "anchors": ["db/query/query.go:NewDb", "db/query/query.go:QueryStr", "db/format/awdb/querier.go:newQuerier", "db/format/awdb/querier.go:Query", "cmd/server/server.go:query"]}
{"id": "C109", "title": "The HTTP server with many requests at a time", "statement": "Whatever requests arrive whenever, and however the goroutines that handle them are interleaved, every request that is replied to gets the reply it would get as the only request ever made (a crash closes its own connection only); each is replied to after a bounded number of its own steps; and no two requests access the same field of a cached object at the same time if one of them writes.", "quantifier": "all opened .ipdb and .awdb files, all histories of arrivals and interleavings of steps", "why_tests_cant": "unboundedly many interleavings, and requests arriving at any point of them", "anchors": ["cmd/server/server.go:query", "cmd/server/server.go:version", "db/query/query.go:QueryStr", "db/format/ipdb/querier.go:Query", "db/format/awdb/querier.go:Query"]}
{"id": "C110", "title": "Conversions with Go's own JSON", "statement": "Every text that comes out of a JSON document is UTF-8, and UTF-8 survives being written and read. So whatever file the converter reads (of an .awdb file the type must be UTF-8), the metadata of its .ipdb output is read back as it was written exactly if the names of its fields are UTF-8; and the conversions of tables, of .ipdb files and of .awdb files keep every address with its information with no assumption on the JSON library.", "quantifier": "all input files, arguments and contents", "why_tests_cant": "all byte sequences of the metadata of an input and all texts in them", "anchors": ["db/format/ipdb/reader.go:newReaderFromBytes", "db/format/ipdb/packer.go:Save", "db/format/plain/dumper.go:newDumper", "cmd/converter/main.go:main"]}
{"id": "C111", "title": "Which texts are addresses, networks and numbers", "statement": "A text is taken as an address exactly if it is a dotted quad without superfluous zeros or an IPv6 address as in RFC 4291 (with at most one ::, which stands for at least one group, and a dotted quad in place of the last two groups), and then as that address; as a network exactly if it is such a text, a slash and a decimal prefix length that fits; as a bound in a .memip line exactly if it is a decimal number below 2^32, with any leading zeros. Addresses are written as dotted quads or as RFC 5952 prescribes (the first longest run of at least two groups of zeros as ::), networks as their address, a slash and the prefix length. The HTTP server answers /text with a record exactly if the text is an address with a record.", "quantifier": "all texts, addresses and networks", "why_tests_cant": "all texts and all addresses", "anchors": ["db/query/query.go:QueryStr", "cmd/server/server.go:query", "db/format/plain/dumper.go:Dump", "db/format/plain/packer.go:pack", "db/format/memip/dumper.go:Dump"]}
{"id": "C112", "title": "Which JSON texts are metadata, versions and replies", "statement": "A text is read as the metadata of an ipdb file, or as the version of a .scan text, only if it is a JSON object (or null) of RFC 8259 with at most 10000 levels. An object in which no member is repeated is accepted exactly if every known member has its type (whole numbers within 64 bits, strings, arrays of strings, an object of numbers; null or missing for nothing), whatever the order, spacing, escapes, letter case of names and unknown members, and is read as it says. What is written (metadata, version, reply of the server) is such an object with the names of the format in its order, whose strings stand for the texts written without repair.", "quantifier": "all byte texts, metadata, versions and replies", "why_tests_cant": "all texts", "anchors": ["db/format/ipdb/reader.go:newReaderFromBytes", "db/format/ipdb/writer.go:Save", "db/format/plain/dumper.go:newDumper", "db/format/plain/packer.go:pack", "cmd/server/server.go:query"]}
{"id": "C113", "title": "Packed files and other JSON libraries", "statement": "The metadata of an ipdb file packed with at least one field, text values and a 32-bit clock is ordinary JSON: an object of two levels with the eight members of the format, each once under its exact name, no null except perhaps for the extra texts, numbers of 32 bits, strings that are UTF-8. Therefore any reader whose JSON library reads such objects as RFC 8259 says gets back the metadata that was packed, and the Java and the Rust reader agree with the Go reader as in C60 and C61 whatever library they use.", "quantifier": "all packed files and all decoders that read ordinary metadata", "why_tests_cant": "all files, addresses and decoders", "anchors": ["db/format/ipdb/writer.go:Save", "java/src/main/java/qiniu/uip/db/format/ipdb/Reader.java:Reader", "rust/src/formats/ipdb/reader.rs:MetaData"]}
{"id": "C114", "title": "Three readers, files of any origin", "statement": "Every well-formed ipdb file, whoever wrote it (any number of languages and fields, any node table with numbers below 2^31 that lies inside the body, any order of records), is opened by the Go, the Java and the Rust reader when their JSON libraries read the same metadata from it. Every address of a declared family whose path through the table leads to a complete record gets from Go and Java the values in the CN columns of that record, wherever they are, and from Rust the values in the first columns, so from all three the same when CN comes first; from Go also the length of the path. Otherwise the only differences are the Java line (the last of the asn and line columns) and that Rust drops a continent that is not one of the codes. The conditions are needed: on records with too few or too many columns, on a number equal to the node count and on a path that does not end the readers differ, and on a file whose CN columns are not the first the Rust reader answers in another language.", "quantifier": "all well-formed files of any origin, all addresses with a complete record", "why_tests_cant": "all files and addresses, not only those this library wrote", "anchors": ["db/format/ipdb/reader.go:newReader", "db/format/ipdb/reader.go:find0", "java/src/main/java/qiniu/uip/db/format/ipdb/Reader.java:Reader", "java/src/main/java/qiniu/uip/db/format/ipdb/Ipdb.java:query", "rust/src/formats/ipdb/reader.rs:Reader", "rust/src/formats/ipdb/reader.rs:find"]}
{"id": "C115", "title": "Files that cannot crash the Java and Rust readers", "statement": "For every file below 2 GiB, damaged, cut or hostile, the Rust reader does not panic and the Java reader throws no foreign exception, neither when the file is opened (with a warm cache of any addresses) nor for any query of any byte array, if: the length bytes do not say -4 to -1 (Rust), the total size is not negative (Java), and, in case the sizes add up, the node table is not empty, lies inside the body and has numbers below 2^31, the CN columns are among those of a record with all languages, and every number that is not a node leads to a record that is readable (its length bytes are in the body, and if the text is there too it has all CN columns) or lies behind the end of the file; in Java also node 0, whose record is read for an address whose path does not end. Each of these conditions is needed.", "quantifier": "all files, JSON decoders, text readings and byte arrays", "why_tests_cant": "all files, including those no test has", "anchors": ["java/src/main/java/qiniu/uip/db/format/ipdb/Reader.java:Reader", "java/src/main/java/qiniu/uip/db/format/ipdb/Reader.java:query", "rust/src/formats/ipdb/reader.rs:new", "rust/src/formats/ipdb/reader.rs:find"]}
{"id": "C116", "title": "Iteration order of Go maps", "statement": "Go visits the entries of a map in an order that changes from one loop to the next. Whatever the orders taken by the loops over the field map and over the records, an awdb file is opened with the same outcome, every query of it has the same answer, and every dump of an awdb or ipdb file has the same outcome: the same field names in the same order, the same rows in the same order with the same values, the same error or crash. Only the order of the languages in the version of an ipdb file with several languages may differ between two runs.", "quantifier": "all iteration orders, each loop with its own, all files and export rules", "why_tests_cant": "the order is random in every run", "anchors": ["db/field/fields.go:ExtKeys", "db/field/export/export.go:Select", "db/field/export/export.go:BuildIPData", "db/format/awdb/querier.go:Find", "db/format/awdb/dumper.go:find", "db/format/ipdb/reader.go:Languages"]}
{"id": "C117", "title": "Equal data, equal files", "statement": "What the converter writes depends on the data, not on how it is stored: two .ipdb inputs of the same release (address family, version text, extra information) that give every address of the family the same answer are converted, without a line file, to .ipdb files with the same bytes when the clock is the same, however the two inputs cut the address space into networks, order their records or name their columns, whatever other files there are and in whatever order Go visits its maps. The same holds for inputs of any kind whose tables have the same fields, ascend and give every address the same record. The condition is that no AS number of a record with a minor carrier occurs with two main carriers; without it two runs over one file may differ.", "quantifier": "all pairs of inputs, file systems, map orders and capacities", "why_tests_cant": "a test compares outputs of the inputs it has", "anchors": ["cmd/converter/main.go:main", "db/format/ipdb/dumper.go:dump", "db/field/operate/replace.go:MergeNearNetwork", "db/field/operate/replace.go:TrimAsnIspDup", "db/format/ipdb/writer.go:Save"]}
{"id": "C118", "title": "Converting again changes no answer", "statement": "Converting is stable. The .ipdb file a conversion of an .ipdb file writes can itself be converted, in any later run, wherever the files are and in whatever order Go visits its maps; all these second conversions write the same bytes, the new file gives every address the answer the first output gave, and every further conversion reproduces the second output byte for byte. The condition is that of C117 (no AS number of a record with a minor carrier occurs with two main carriers); without it a second conversion can change the carrier of addresses outside China. The first output itself need not be reproduced: it may still contain neighbouring networks with the same record, which the second conversion merges.", "quantifier": "all convertible inputs, later runs, file systems, map orders and capacities", "why_tests_cant": "a test converts the files it has, in the map orders that happen to occur", "anchors": ["cmd/converter/main.go:main", "db/field/operate/replace.go:MergeNearNetwork", "db/field/operate/replace.go:TrimAsnIspDup", "db/field/operate/district.go:AttachDistrict", "db/format/ipdb/dumper.go:dump", "db/format/ipdb/writer.go:Save"]}
{"id": "C119", "title": "Converted databases in the Java and the Rust reader", "statement": "A file the converter writes as .ipdb (below 2 GiB, of texts) opens in the Java and the Rust reader as in the Go reader. For every address that has a row, in a form both take, the Java answer is the Go answer of the converted file (cleaned names, district, settled carrier, C64, C95) except that its line is the AS number when the table has no later line column; the Rust answer is the Go answer except that the continent is there only if it is stored as a code. Since the Go reader never answers with a code, the Rust reader answers every address of a file converted from .ipdb to .ipdb without a continent. Addresses of a length they do not take are refused by both.", "quantifier": "all convertible inputs, addresses, warm-up lists, map orders, and all JSON libraries that read ordinary metadata", "why_tests_cant": "tests exercise the converter and the three readers separately, on the files they have", "anchors": ["cmd/converter/main.go:main", "db/format/ipdb/writer.go:Save", "db/format/ipdb/dumper.go:dump", "rust/src/formats/ipdb/reader.rs:find", "db/field/operate/district.go:AttachDistrict", "java/src/main/java/qiniu/uip/db/format/ipdb/Reader.java:Reader"]}
{"id": "C120", "title": "Converting through a .scan text loses nothing", "statement": "An .ipdb file in which every AS number has one main carrier can be converted to a database or to a .scan text; if no value has a comma or a line break, either output carries the same: converting the database again and converting the text write the same bytes, and that file answers every address of the family as the converted database does. This holds for every order in which Go walks its maps in any of the runs. It holds of every file whose version information fits a line of the text, in any program whose version line carries the release; Go's JSON does.", "quantifier": "all convertible .ipdb inputs, map orders, file systems, names and fuel bounds", "why_tests_cant": "tests exercise single conversions of single files, never two ways of the same file", "anchors": ["cmd/converter/main.go:main", "db/format/plain/packer.go:pack", "db/format/plain/dumper.go:parseLine", "db/format/ipdb/dumper.go:dump", "db/format/ipdb/writer.go:Save"]}
{"id": "C121", "title": "What a caller does to an answer of the Java reader can change later answers", "statement": "The Java reader hands out the objects of its warm-up cache. After any history of queries and assignments to the fields of earlier answers, a query answers as a freshly opened reader does, except that an address ending on a record cached at opening time answers the last value assigned to an answer that ended on that record. So callers that only read always get the answers of the file; an address whose answer is that of no warm-up address, and every address of a file without IPv4, keeps its answer whatever callers do; and whoever overwrites the answer for a warm-up address decides what everybody is told about it from then on.", "quantifier": "all database files, warm-up lists, histories of queries and assignments, and addresses", "why_tests_cant": "the tests query each address once and never write to an answer; the effect depends on the whole history", "anchors": ["java/src/main/java/qiniu/uip/db/format/ipdb/Reader.java:buildCache", "java/src/main/java/qiniu/uip/db/format/ipdb/Reader.java:query", "java/src/main/java/qiniu/uip/db/format/ipdb/Ipdb.java:query", "java/src/main/java/qiniu/uip/db/Query.java:create", "java/src/main/java/qiniu/uip/db/IpInfo.java:country"]}
{"id": "C122", "title": "Programs that run at the same time do not disturb each other unless they share an output", "statement": "Converters and starting servers or simples run as processes whose file system calls are interleaved in any way, each read and write moving any number of bytes. A program none of whose files is an output of another program ends as it does when it runs alone, with the same files; it ends after a number of steps of its own that does not depend on the others if it ends alone, and never otherwise; files that are nobody's output do not change. Two converters with the same output can both report success and leave a file that neither of them writes.", "quantifier": "all sets of processes, file systems, schedules, and numbers of bytes moved by a call", "why_tests_cant": "tests run one program at a time; there are as many schedules as interleavings of all reads and writes", "anchors": ["cmd/converter/main.go:main", "db/convert/packer.go:PackFile", "db/convert/dumper.go:DumpFile", "db/query/query.go:NewDb", "cmd/server/main.go:main"]}
{"id": "C123", "title": "A database that is opened while a converter writes it", "statement": "A converter, whose files no other program writes and whose outputs are different, runs among other programs. At every moment each output is what it was before or the beginning of what the run leaves there. A server or simple that opens an output at any time panics as the file is not there, or opens the beginning of the old file followed by what comes after as many bytes in the new one; all these mixtures can occur. If the outputs are new .ipdb files, it fails or opens the complete database and answers from the table. If there was an old file, it can open, without an error, a database that is neither the old nor the new one.", "quantifier": "all sets of processes, file systems, schedules, and numbers of bytes moved by a call", "why_tests_cant": "the outcome depends on where the reads of one process fall among the writes of another", "anchors": ["cmd/converter/main.go:main", "db/convert/packer.go:PackFile", "db/query/query.go:NewDb", "db/format/ipdb/init.go:init", "cmd/simple/main.go:main"]}
{"id": "C124", "title": "The lines of a text do not depend on how it is read", "statement": "Reading a .scan or .memip text or a list of names line by line delivers, however many bytes each read moves, the parts between its newlines in order: without a carriage return before the newline, the last one also if no newline follows it, unless it is empty. The reading comes to an end after a number of steps that depends on the length of the text only. A line of more than 65535 bytes ends it: neither this line nor any after it is delivered.", "quantifier": "all texts and all numbers of bytes moved by the reads", "why_tests_cant": "a test reads a text in one way; lines fall across reads and across shifts and growths of the buffer at every position", "anchors": ["db/format/plain/dumper.go:newDumper", "db/format/memip/dumper.go:newDumper", "db/field/data/load.go:parseData"]}
{"id": "C125", "title": "What dumping any scan text gives", "statement": "Dumping a .scan text under any rule crashes exactly when it has fewer than two lines, when the second line has fewer than five bytes before its JSON text or this is null, or when the third has fewer than five bytes; it returns an error exactly when the JSON text is no version or when some row after the third line is not a network and as many values as there are fields (separated by a tab and by commas) while the rows before it are and do not contain the last address; in every other case it succeeds, with the version of the second line, the fields of the rule or, without one, of the third line, and the rows up to the first that contains the last address. The value of a field is that of the last column of this name; under an empty rule rows have no values. A text without a third line is accepted silently, as data without fields and rows; what follows a row with the last address, or a line that is too long, is ignored silently.", "quantifier": "all texts, rules and JSON libraries", "why_tests_cant": "tests dump well-formed texts; the outcome has to be known for every text and rule", "anchors": ["db/format/plain/dumper.go:newDumper", "db/format/plain/dumper.go:parseLine", "db/format/plain/dumper.go:Dump", "db/field/export/export.go:ParseRule"]}
{"id": "C126", "title": "Exactly which tables survive a scan text", "statement": "Writing a table to a .scan text and dumping it under the rule that lists its fields gives back all of its rows, with commas replaced, exactly when each row is a network (an IPv4 one in four bytes) with as many values as there are fields, no value has a tab or a newline, no last value ends with a carriage return, each line is shorter than 64 KiB, and no row but the last contains the last address of its family; the table comes back unchanged exactly when, besides, no value has a comma.", "quantifier": "all tables whose field names are distinct and fit the third line, all rows and values", "why_tests_cant": "the rows and bytes of values are unbounded; a test of good tables does not show that every other table is damaged, nor that the carriage return inside is harmless", "anchors": ["db/format/plain/packer.go:pack", "db/format/plain/packer.go:replaceComma", "db/format/plain/dumper.go:Dump", "db/format/plain/dumper.go:parseLine"]}
{"id": "C127", "title": "Dumps and lookups of ipdb files of any origin", "statement": "Every well-formed ipdb file of any origin (any number of languages, in any order) opens; looking up the columns of an address that has a record, in any language of the file, gives the network of its path and, for every column name, the value of the last column of this name in this language, a continent code spelled out, and a database error exactly if the record has too few columns; a language that the file does not have is an error for every address. In a dump without a rule, the row that covers an address with a record has the network of its path and, for every field, the value of its column in Chinese, wherever these columns are, so that it agrees with what Query answers for the address: in the prefix length and in every dumped field that is an attribute of answers.", "quantifier": "all well-formed files of any origin with at most one continent column, all languages, addresses, records and dumps that succeed", "why_tests_cant": "files, languages and records are unbounded; tests use the files of one vendor with the Chinese columns first", "anchors": ["db/format/ipdb/reader.go:findMap", "db/format/ipdb/reader.go:find1", "db/format/ipdb/reader.go:decodeInfo", "db/format/ipdb/dumper.go:dump", "db/format/ipdb/querier.go:QueryInternal"]}
{"id": "C128", "title": "A converted ipdb file and the three readers", "statement": "Take any ipdb file that the Go reader accepts, of any origin, dump it without a rule, pack the dump and open the new file with the Go, the Java and the Rust reader. On every address of the dumped family the Go reader answers what it answered on the old file, with the same prefix length; the Java reader gives the same attributes except that its line is the value of the last of the asn and line columns; the Rust reader gives the same attributes except that its continent is always empty, because the conversion spells continents out and the Rust reader knows only codes. In particular a file on which the Rust reader answers in another language (C114) is answered in Chinese after the conversion.", "quantifier": "all accepted files whose dump succeeds and can be packed, all addresses of the dumped family, all JSON libraries of Java and Rust that read ordinary metadata", "why_tests_cant": "It composes the dump of arbitrary files, the packer and three readers in three languages; files, records and addresses are unbounded, and no Go test can run the other readers.", "anchors": ["db/format/ipdb/dumper.go:dump", "db/format/ipdb/packer.go:pack", "db/format/ipdb/reader.go:decodeInfo", "db/format/ipdb/querier.go:Query", "java/src/main/java/qiniu/uip/db/format/ipdb/Ipdb.java:query", "rust/src/formats/ipdb/reader.rs:find"]}
