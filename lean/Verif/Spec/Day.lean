/- Specification: seconds since midnight (UTC) of a millisecond timestamp, as csv-compressor understands it (the fraction of a second is dropped
toward 1970). -/
namespace Atsc

def daySecond (ms : Int) : Int := (ms.tdiv 1000) % 86400

end Atsc
