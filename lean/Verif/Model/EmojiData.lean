/-
The emoji table: src/extensions/emoji_data.h:17-938, `complete_emoji_map`, in the same order, without the
terminator.  Generated from that file.
-/
import Verif.Basic

namespace Verif.Emoji

/-- src/extensions/emoji_data.h:10-14, `emoji_entry`. -/
structure Entry where
  name : Bytes
  unicode : Option Bytes
  image : Option Bytes
  deriving DecidableEq, Repr

/-- emoji_data.h, entries 0 to 99. -/
def table0 : List Entry := [
  ⟨b!"+1", some [240, 159, 145, 141], none⟩,
  ⟨b!"-1", some [240, 159, 145, 142], none⟩,
  ⟨b!"100", some [240, 159, 146, 175], none⟩,
  ⟨b!"1234", some [240, 159, 148, 162], none⟩,
  ⟨b!"8ball", some [240, 159, 142, 177], none⟩,
  ⟨b!"a", some [240, 159, 133, 176, 239, 184, 143], none⟩,
  ⟨b!"ab", some [240, 159, 134, 142], none⟩,
  ⟨b!"abc", some [240, 159, 148, 164], none⟩,
  ⟨b!"abcd", some [240, 159, 148, 161], none⟩,
  ⟨b!"accept", some [240, 159, 137, 145], none⟩,
  ⟨b!"aerial_tramway", some [240, 159, 154, 161], none⟩,
  ⟨b!"airplane", some [226, 156, 136, 239, 184, 143], none⟩,
  ⟨b!"alarm_clock", some [226, 143, 176], none⟩,
  ⟨b!"alien", some [240, 159, 145, 189], none⟩,
  ⟨b!"ambulance", some [240, 159, 154, 145], none⟩,
  ⟨b!"anchor", some [226, 154, 147], none⟩,
  ⟨b!"angel", some [240, 159, 145, 188], none⟩,
  ⟨b!"anger", some [240, 159, 146, 162], none⟩,
  ⟨b!"angry", some [240, 159, 152, 160], none⟩,
  ⟨b!"anguished", some [240, 159, 152, 167], none⟩,
  ⟨b!"ant", some [240, 159, 144, 156], none⟩,
  ⟨b!"apple", some [240, 159, 141, 142], none⟩,
  ⟨b!"aquarius", some [226, 153, 146], none⟩,
  ⟨b!"aries", some [226, 153, 136], none⟩,
  ⟨b!"arrow_backward", some [226, 151, 128, 239, 184, 143], none⟩,
  ⟨b!"arrow_double_down", some [226, 143, 172], none⟩,
  ⟨b!"arrow_double_up", some [226, 143, 171], none⟩,
  ⟨b!"arrow_down", some [226, 172, 135, 239, 184, 143], none⟩,
  ⟨b!"arrow_down_small", some [240, 159, 148, 189], none⟩,
  ⟨b!"arrow_forward", some [226, 150, 182, 239, 184, 143], none⟩,
  ⟨b!"arrow_heading_down", some [226, 164, 181, 239, 184, 143], none⟩,
  ⟨b!"arrow_heading_up", some [226, 164, 180, 239, 184, 143], none⟩,
  ⟨b!"arrow_left", some [226, 172, 133, 239, 184, 143], none⟩,
  ⟨b!"arrow_lower_left", some [226, 134, 153, 239, 184, 143], none⟩,
  ⟨b!"arrow_lower_right", some [226, 134, 152, 239, 184, 143], none⟩,
  ⟨b!"arrow_right", some [226, 158, 161, 239, 184, 143], none⟩,
  ⟨b!"arrow_right_hook", some [226, 134, 170, 239, 184, 143], none⟩,
  ⟨b!"arrow_up", some [226, 172, 134, 239, 184, 143], none⟩,
  ⟨b!"arrow_up_down", some [226, 134, 149, 239, 184, 143], none⟩,
  ⟨b!"arrow_up_small", some [240, 159, 148, 188], none⟩,
  ⟨b!"arrow_upper_left", some [226, 134, 150, 239, 184, 143], none⟩,
  ⟨b!"arrow_upper_right", some [226, 134, 151, 239, 184, 143], none⟩,
  ⟨b!"arrows_clockwise", some [240, 159, 148, 131], none⟩,
  ⟨b!"arrows_counterclockwise", some [240, 159, 148, 132], none⟩,
  ⟨b!"art", some [240, 159, 142, 168], none⟩,
  ⟨b!"articulated_lorry", some [240, 159, 154, 155], none⟩,
  ⟨b!"astonished", some [240, 159, 152, 178], none⟩,
  ⟨b!"atm", some [240, 159, 143, 167], none⟩,
  ⟨b!"b", some [240, 159, 133, 177, 239, 184, 143], none⟩,
  ⟨b!"baby", some [240, 159, 145, 182], none⟩,
  ⟨b!"baby_bottle", some [240, 159, 141, 188], none⟩,
  ⟨b!"baby_chick", some [240, 159, 144, 164], none⟩,
  ⟨b!"baby_symbol", some [240, 159, 154, 188], none⟩,
  ⟨b!"baggage_claim", some [240, 159, 155, 132], none⟩,
  ⟨b!"balloon", some [240, 159, 142, 136], none⟩,
  ⟨b!"ballot_box_with_check", some [226, 152, 145, 239, 184, 143], none⟩,
  ⟨b!"bamboo", some [240, 159, 142, 141], none⟩,
  ⟨b!"banana", some [240, 159, 141, 140], none⟩,
  ⟨b!"bangbang", some [226, 128, 188, 239, 184, 143], none⟩,
  ⟨b!"bank", some [240, 159, 143, 166], none⟩,
  ⟨b!"bar_chart", some [240, 159, 147, 138], none⟩,
  ⟨b!"barber", some [240, 159, 146, 136], none⟩,
  ⟨b!"baseball", some [226, 154, 190], none⟩,
  ⟨b!"basketball", some [240, 159, 143, 128], none⟩,
  ⟨b!"bath", some [240, 159, 155, 128], none⟩,
  ⟨b!"bathtub", some [240, 159, 155, 129], none⟩,
  ⟨b!"battery", some [240, 159, 148, 139], none⟩,
  ⟨b!"bear", some [240, 159, 144, 187], none⟩,
  ⟨b!"beer", some [240, 159, 141, 186], none⟩,
  ⟨b!"beers", some [240, 159, 141, 187], none⟩,
  ⟨b!"beetle", some [240, 159, 170, 178], none⟩,
  ⟨b!"beginner", some [240, 159, 148, 176], none⟩,
  ⟨b!"bell", some [240, 159, 148, 148], none⟩,
  ⟨b!"bento", some [240, 159, 141, 177], none⟩,
  ⟨b!"bicyclist", some [240, 159, 154, 180], none⟩,
  ⟨b!"bike", some [240, 159, 154, 178], none⟩,
  ⟨b!"bikini", some [240, 159, 145, 153], none⟩,
  ⟨b!"bird", some [240, 159, 144, 166], none⟩,
  ⟨b!"birthday", some [240, 159, 142, 130], none⟩,
  ⟨b!"black_circle", some [226, 154, 171], none⟩,
  ⟨b!"black_joker", some [240, 159, 131, 143], none⟩,
  ⟨b!"black_nib", some [226, 156, 146, 239, 184, 143], none⟩,
  ⟨b!"black_square_button", some [240, 159, 148, 178], none⟩,
  ⟨b!"blossom", some [240, 159, 140, 188], none⟩,
  ⟨b!"blowfish", some [240, 159, 144, 161], none⟩,
  ⟨b!"blue_book", some [240, 159, 147, 152], none⟩,
  ⟨b!"blue_car", some [240, 159, 154, 153], none⟩,
  ⟨b!"blue_heart", some [240, 159, 146, 153], none⟩,
  ⟨b!"blush", some [240, 159, 152, 138], none⟩,
  ⟨b!"boar", some [240, 159, 144, 151], none⟩,
  ⟨b!"boat", some [226, 155, 181], none⟩,
  ⟨b!"bomb", some [240, 159, 146, 163], none⟩,
  ⟨b!"book", some [240, 159, 147, 150], none⟩,
  ⟨b!"bookmark", some [240, 159, 148, 150], none⟩,
  ⟨b!"bookmark_tabs", some [240, 159, 147, 145], none⟩,
  ⟨b!"books", some [240, 159, 147, 154], none⟩,
  ⟨b!"boom", some [240, 159, 146, 165], none⟩,
  ⟨b!"boot", some [240, 159, 145, 162], none⟩,
  ⟨b!"bouquet", some [240, 159, 146, 144], none⟩,
  ⟨b!"bow", some [240, 159, 153, 135], none⟩]

/-- emoji_data.h, entries 100 to 199. -/
def table1 : List Entry := [
  ⟨b!"bowling", some [240, 159, 142, 179], none⟩,
  ⟨b!"bowtie", none, some b!"https://github.githubassets.com/images/icons/emoji/bowtie.png"⟩,
  ⟨b!"boy", some [240, 159, 145, 166], none⟩,
  ⟨b!"bread", some [240, 159, 141, 158], none⟩,
  ⟨b!"bride_with_veil", some [240, 159, 145, 176, 226, 128, 141, 226, 153, 128, 239, 184, 143], none⟩,
  ⟨b!"bridge_at_night", some [240, 159, 140, 137], none⟩,
  ⟨b!"briefcase", some [240, 159, 146, 188], none⟩,
  ⟨b!"broken_heart", some [240, 159, 146, 148], none⟩,
  ⟨b!"bug", some [240, 159, 144, 155], none⟩,
  ⟨b!"bulb", some [240, 159, 146, 161], none⟩,
  ⟨b!"bullettrain_front", some [240, 159, 154, 133], none⟩,
  ⟨b!"bullettrain_side", some [240, 159, 154, 132], none⟩,
  ⟨b!"bus", some [240, 159, 154, 140], none⟩,
  ⟨b!"busstop", some [240, 159, 154, 143], none⟩,
  ⟨b!"bust_in_silhouette", some [240, 159, 145, 164], none⟩,
  ⟨b!"busts_in_silhouette", some [240, 159, 145, 165], none⟩,
  ⟨b!"cactus", some [240, 159, 140, 181], none⟩,
  ⟨b!"cake", some [240, 159, 141, 176], none⟩,
  ⟨b!"calendar", some [240, 159, 147, 134], none⟩,
  ⟨b!"calling", some [240, 159, 147, 178], none⟩,
  ⟨b!"camel", some [240, 159, 144, 171], none⟩,
  ⟨b!"camera", some [240, 159, 147, 183], none⟩,
  ⟨b!"cancer", some [226, 153, 139], none⟩,
  ⟨b!"candy", some [240, 159, 141, 172], none⟩,
  ⟨b!"capital_abcd", some [240, 159, 148, 160], none⟩,
  ⟨b!"capricorn", some [226, 153, 145], none⟩,
  ⟨b!"car", some [240, 159, 154, 151], none⟩,
  ⟨b!"card_index", some [240, 159, 147, 135], none⟩,
  ⟨b!"carousel_horse", some [240, 159, 142, 160], none⟩,
  ⟨b!"cat", some [240, 159, 144, 177], none⟩,
  ⟨b!"cat2", some [240, 159, 144, 136], none⟩,
  ⟨b!"cd", some [240, 159, 146, 191], none⟩,
  ⟨b!"chart", some [240, 159, 146, 185], none⟩,
  ⟨b!"chart_with_downwards_trend", some [240, 159, 147, 137], none⟩,
  ⟨b!"chart_with_upwards_trend", some [240, 159, 147, 136], none⟩,
  ⟨b!"checkered_flag", some [240, 159, 143, 129], none⟩,
  ⟨b!"cherries", some [240, 159, 141, 146], none⟩,
  ⟨b!"cherry_blossom", some [240, 159, 140, 184], none⟩,
  ⟨b!"chestnut", some [240, 159, 140, 176], none⟩,
  ⟨b!"chicken", some [240, 159, 144, 148], none⟩,
  ⟨b!"children_crossing", some [240, 159, 154, 184], none⟩,
  ⟨b!"chocolate_bar", some [240, 159, 141, 171], none⟩,
  ⟨b!"christmas_tree", some [240, 159, 142, 132], none⟩,
  ⟨b!"church", some [226, 155, 170], none⟩,
  ⟨b!"cinema", some [240, 159, 142, 166], none⟩,
  ⟨b!"circus_tent", some [240, 159, 142, 170], none⟩,
  ⟨b!"city_sunrise", some [240, 159, 140, 135], none⟩,
  ⟨b!"city_sunset", some [240, 159, 140, 134], none⟩,
  ⟨b!"cl", some [240, 159, 134, 145], none⟩,
  ⟨b!"clap", some [240, 159, 145, 143], none⟩,
  ⟨b!"clapper", some [240, 159, 142, 172], none⟩,
  ⟨b!"clipboard", some [240, 159, 147, 139], none⟩,
  ⟨b!"clock1", some [240, 159, 149, 144], none⟩,
  ⟨b!"clock10", some [240, 159, 149, 153], none⟩,
  ⟨b!"clock1030", some [240, 159, 149, 165], none⟩,
  ⟨b!"clock11", some [240, 159, 149, 154], none⟩,
  ⟨b!"clock1130", some [240, 159, 149, 166], none⟩,
  ⟨b!"clock12", some [240, 159, 149, 155], none⟩,
  ⟨b!"clock1230", some [240, 159, 149, 167], none⟩,
  ⟨b!"clock130", some [240, 159, 149, 156], none⟩,
  ⟨b!"clock2", some [240, 159, 149, 145], none⟩,
  ⟨b!"clock230", some [240, 159, 149, 157], none⟩,
  ⟨b!"clock3", some [240, 159, 149, 146], none⟩,
  ⟨b!"clock330", some [240, 159, 149, 158], none⟩,
  ⟨b!"clock4", some [240, 159, 149, 147], none⟩,
  ⟨b!"clock430", some [240, 159, 149, 159], none⟩,
  ⟨b!"clock5", some [240, 159, 149, 148], none⟩,
  ⟨b!"clock530", some [240, 159, 149, 160], none⟩,
  ⟨b!"clock6", some [240, 159, 149, 149], none⟩,
  ⟨b!"clock630", some [240, 159, 149, 161], none⟩,
  ⟨b!"clock7", some [240, 159, 149, 150], none⟩,
  ⟨b!"clock730", some [240, 159, 149, 162], none⟩,
  ⟨b!"clock8", some [240, 159, 149, 151], none⟩,
  ⟨b!"clock830", some [240, 159, 149, 163], none⟩,
  ⟨b!"clock9", some [240, 159, 149, 152], none⟩,
  ⟨b!"clock930", some [240, 159, 149, 164], none⟩,
  ⟨b!"closed_book", some [240, 159, 147, 149], none⟩,
  ⟨b!"closed_lock_with_key", some [240, 159, 148, 144], none⟩,
  ⟨b!"closed_umbrella", some [240, 159, 140, 130], none⟩,
  ⟨b!"cloud", some [226, 152, 129, 239, 184, 143], none⟩,
  ⟨b!"clubs", some [226, 153, 163, 239, 184, 143], none⟩,
  ⟨b!"cn", some [240, 159, 135, 168, 240, 159, 135, 179], none⟩,
  ⟨b!"cocktail", some [240, 159, 141, 184], none⟩,
  ⟨b!"coffee", some [226, 152, 149], none⟩,
  ⟨b!"cold_sweat", some [240, 159, 152, 176], none⟩,
  ⟨b!"collision", some [240, 159, 146, 165], none⟩,
  ⟨b!"computer", some [240, 159, 146, 187], none⟩,
  ⟨b!"confetti_ball", some [240, 159, 142, 138], none⟩,
  ⟨b!"confounded", some [240, 159, 152, 150], none⟩,
  ⟨b!"confused", some [240, 159, 152, 149], none⟩,
  ⟨b!"congratulations", some [227, 138, 151, 239, 184, 143], none⟩,
  ⟨b!"construction", some [240, 159, 154, 167], none⟩,
  ⟨b!"construction_worker", some [240, 159, 145, 183], none⟩,
  ⟨b!"convenience_store", some [240, 159, 143, 170], none⟩,
  ⟨b!"cookie", some [240, 159, 141, 170], none⟩,
  ⟨b!"cool", some [240, 159, 134, 146], none⟩,
  ⟨b!"cop", some [240, 159, 145, 174], none⟩,
  ⟨b!"copyright", some [194, 169, 239, 184, 143], none⟩,
  ⟨b!"corn", some [240, 159, 140, 189], none⟩,
  ⟨b!"couple", some [240, 159, 145, 171], none⟩]

/-- emoji_data.h, entries 200 to 299. -/
def table2 : List Entry := [
  ⟨b!"couple_with_heart", some [240, 159, 146, 145], none⟩,
  ⟨b!"couplekiss", some [240, 159, 146, 143], none⟩,
  ⟨b!"cow", some [240, 159, 144, 174], none⟩,
  ⟨b!"cow2", some [240, 159, 144, 132], none⟩,
  ⟨b!"credit_card", some [240, 159, 146, 179], none⟩,
  ⟨b!"crocodile", some [240, 159, 144, 138], none⟩,
  ⟨b!"crossed_flags", some [240, 159, 142, 140], none⟩,
  ⟨b!"crown", some [240, 159, 145, 145], none⟩,
  ⟨b!"cry", some [240, 159, 152, 162], none⟩,
  ⟨b!"crying_cat_face", some [240, 159, 152, 191], none⟩,
  ⟨b!"crystal_ball", some [240, 159, 148, 174], none⟩,
  ⟨b!"cupid", some [240, 159, 146, 152], none⟩,
  ⟨b!"curly_loop", some [226, 158, 176], none⟩,
  ⟨b!"currency_exchange", some [240, 159, 146, 177], none⟩,
  ⟨b!"curry", some [240, 159, 141, 155], none⟩,
  ⟨b!"custard", some [240, 159, 141, 174], none⟩,
  ⟨b!"customs", some [240, 159, 155, 131], none⟩,
  ⟨b!"cyclone", some [240, 159, 140, 128], none⟩,
  ⟨b!"dancer", some [240, 159, 146, 131], none⟩,
  ⟨b!"dancers", some [240, 159, 145, 175], none⟩,
  ⟨b!"dango", some [240, 159, 141, 161], none⟩,
  ⟨b!"dart", some [240, 159, 142, 175], none⟩,
  ⟨b!"dash", some [240, 159, 146, 168], none⟩,
  ⟨b!"date", some [240, 159, 147, 133], none⟩,
  ⟨b!"de", some [240, 159, 135, 169, 240, 159, 135, 170], none⟩,
  ⟨b!"deciduous_tree", some [240, 159, 140, 179], none⟩,
  ⟨b!"department_store", some [240, 159, 143, 172], none⟩,
  ⟨b!"diamond_shape_with_a_dot_inside", some [240, 159, 146, 160], none⟩,
  ⟨b!"diamonds", some [226, 153, 166, 239, 184, 143], none⟩,
  ⟨b!"disappointed", some [240, 159, 152, 158], none⟩,
  ⟨b!"disappointed_relieved", some [240, 159, 152, 165], none⟩,
  ⟨b!"dizzy", some [240, 159, 146, 171], none⟩,
  ⟨b!"dizzy_face", some [240, 159, 152, 181], none⟩,
  ⟨b!"do_not_litter", some [240, 159, 154, 175], none⟩,
  ⟨b!"dog", some [240, 159, 144, 182], none⟩,
  ⟨b!"dog2", some [240, 159, 144, 149], none⟩,
  ⟨b!"dollar", some [240, 159, 146, 181], none⟩,
  ⟨b!"dolls", some [240, 159, 142, 142], none⟩,
  ⟨b!"dolphin", some [240, 159, 144, 172], none⟩,
  ⟨b!"door", some [240, 159, 154, 170], none⟩,
  ⟨b!"doughnut", some [240, 159, 141, 169], none⟩,
  ⟨b!"dragon", some [240, 159, 144, 137], none⟩,
  ⟨b!"dragon_face", some [240, 159, 144, 178], none⟩,
  ⟨b!"dress", some [240, 159, 145, 151], none⟩,
  ⟨b!"dromedary_camel", some [240, 159, 144, 170], none⟩,
  ⟨b!"droplet", some [240, 159, 146, 167], none⟩,
  ⟨b!"dvd", some [240, 159, 147, 128], none⟩,
  ⟨b!"e-mail", some [240, 159, 147, 167], none⟩,
  ⟨b!"ear", some [240, 159, 145, 130], none⟩,
  ⟨b!"ear_of_rice", some [240, 159, 140, 190], none⟩,
  ⟨b!"earth_africa", some [240, 159, 140, 141], none⟩,
  ⟨b!"earth_americas", some [240, 159, 140, 142], none⟩,
  ⟨b!"earth_asia", some [240, 159, 140, 143], none⟩,
  ⟨b!"egg", some [240, 159, 165, 154], none⟩,
  ⟨b!"eggplant", some [240, 159, 141, 134], none⟩,
  ⟨b!"eight", some [56, 239, 184, 143, 226, 131, 163], none⟩,
  ⟨b!"eight_pointed_black_star", some [226, 156, 180, 239, 184, 143], none⟩,
  ⟨b!"eight_spoked_asterisk", some [226, 156, 179, 239, 184, 143], none⟩,
  ⟨b!"electric_plug", some [240, 159, 148, 140], none⟩,
  ⟨b!"elephant", some [240, 159, 144, 152], none⟩,
  ⟨b!"email", some [240, 159, 147, 167], none⟩,
  ⟨b!"end", some [240, 159, 148, 154], none⟩,
  ⟨b!"envelope", some [226, 156, 137, 239, 184, 143], none⟩,
  ⟨b!"es", some [240, 159, 135, 170, 240, 159, 135, 184], none⟩,
  ⟨b!"euro", some [240, 159, 146, 182], none⟩,
  ⟨b!"european_castle", some [240, 159, 143, 176], none⟩,
  ⟨b!"european_post_office", some [240, 159, 143, 164], none⟩,
  ⟨b!"evergreen_tree", some [240, 159, 140, 178], none⟩,
  ⟨b!"exclamation", some [226, 157, 151], none⟩,
  ⟨b!"expressionless", some [240, 159, 152, 145], none⟩,
  ⟨b!"eyeglasses", some [240, 159, 145, 147], none⟩,
  ⟨b!"eyes", some [240, 159, 145, 128], none⟩,
  ⟨b!"facepunch", some [240, 159, 145, 138], none⟩,
  ⟨b!"factory", some [240, 159, 143, 173], none⟩,
  ⟨b!"fallen_leaf", some [240, 159, 141, 130], none⟩,
  ⟨b!"family", some [240, 159, 145, 170], none⟩,
  ⟨b!"fast_forward", some [226, 143, 169], none⟩,
  ⟨b!"fax", some [240, 159, 147, 160], none⟩,
  ⟨b!"fearful", some [240, 159, 152, 168], none⟩,
  ⟨b!"feelsgood", none, some b!"https://github.githubassets.com/images/icons/emoji/feelsgood.png"⟩,
  ⟨b!"feet", some [240, 159, 144, 190], none⟩,
  ⟨b!"ferris_wheel", some [240, 159, 142, 161], none⟩,
  ⟨b!"file_folder", some [240, 159, 147, 129], none⟩,
  ⟨b!"finnadie", none, some b!"https://github.githubassets.com/images/icons/emoji/finnadie.png"⟩,
  ⟨b!"fire", some [240, 159, 148, 165], none⟩,
  ⟨b!"fire_engine", some [240, 159, 154, 146], none⟩,
  ⟨b!"fireworks", some [240, 159, 142, 134], none⟩,
  ⟨b!"first_quarter_moon", some [240, 159, 140, 147], none⟩,
  ⟨b!"first_quarter_moon_with_face", some [240, 159, 140, 155], none⟩,
  ⟨b!"fish", some [240, 159, 144, 159], none⟩,
  ⟨b!"fish_cake", some [240, 159, 141, 165], none⟩,
  ⟨b!"fishing_pole_and_fish", some [240, 159, 142, 163], none⟩,
  ⟨b!"fist", some [226, 156, 138], none⟩,
  ⟨b!"five", some [53, 239, 184, 143, 226, 131, 163], none⟩,
  ⟨b!"flags", some [240, 159, 142, 143], none⟩,
  ⟨b!"flashlight", some [240, 159, 148, 166], none⟩,
  ⟨b!"floppy_disk", some [240, 159, 146, 190], none⟩,
  ⟨b!"flower_playing_cards", some [240, 159, 142, 180], none⟩,
  ⟨b!"flushed", some [240, 159, 152, 179], none⟩,
  ⟨b!"foggy", some [240, 159, 140, 129], none⟩]

/-- emoji_data.h, entries 300 to 399. -/
def table3 : List Entry := [
  ⟨b!"football", some [240, 159, 143, 136], none⟩,
  ⟨b!"fork_and_knife", some [240, 159, 141, 180], none⟩,
  ⟨b!"fountain", some [226, 155, 178], none⟩,
  ⟨b!"four", some [52, 239, 184, 143, 226, 131, 163], none⟩,
  ⟨b!"four_leaf_clover", some [240, 159, 141, 128], none⟩,
  ⟨b!"fr", some [240, 159, 135, 171, 240, 159, 135, 183], none⟩,
  ⟨b!"free", some [240, 159, 134, 147], none⟩,
  ⟨b!"fried_shrimp", some [240, 159, 141, 164], none⟩,
  ⟨b!"fries", some [240, 159, 141, 159], none⟩,
  ⟨b!"frog", some [240, 159, 144, 184], none⟩,
  ⟨b!"frowning", some [240, 159, 152, 166], none⟩,
  ⟨b!"fu", some [240, 159, 150, 149], none⟩,
  ⟨b!"fuelpump", some [226, 155, 189], none⟩,
  ⟨b!"full_moon", some [240, 159, 140, 149], none⟩,
  ⟨b!"full_moon_with_face", some [240, 159, 140, 157], none⟩,
  ⟨b!"game_die", some [240, 159, 142, 178], none⟩,
  ⟨b!"gb", some [240, 159, 135, 172, 240, 159, 135, 167], none⟩,
  ⟨b!"gem", some [240, 159, 146, 142], none⟩,
  ⟨b!"gemini", some [226, 153, 138], none⟩,
  ⟨b!"ghost", some [240, 159, 145, 187], none⟩,
  ⟨b!"gift", some [240, 159, 142, 129], none⟩,
  ⟨b!"gift_heart", some [240, 159, 146, 157], none⟩,
  ⟨b!"girl", some [240, 159, 145, 167], none⟩,
  ⟨b!"globe_with_meridians", some [240, 159, 140, 144], none⟩,
  ⟨b!"goat", some [240, 159, 144, 144], none⟩,
  ⟨b!"goberserk", none, some b!"https://github.githubassets.com/images/icons/emoji/goberserk.png"⟩,
  ⟨b!"godmode", none, some b!"https://github.githubassets.com/images/icons/emoji/godmode.png"⟩,
  ⟨b!"golf", some [226, 155, 179], none⟩,
  ⟨b!"grapes", some [240, 159, 141, 135], none⟩,
  ⟨b!"green_apple", some [240, 159, 141, 143], none⟩,
  ⟨b!"green_book", some [240, 159, 147, 151], none⟩,
  ⟨b!"green_heart", some [240, 159, 146, 154], none⟩,
  ⟨b!"grey_exclamation", some [226, 157, 149], none⟩,
  ⟨b!"grey_question", some [226, 157, 148], none⟩,
  ⟨b!"grimacing", some [240, 159, 152, 172], none⟩,
  ⟨b!"grin", some [240, 159, 152, 129], none⟩,
  ⟨b!"grinning", some [240, 159, 152, 128], none⟩,
  ⟨b!"guardsman", some [240, 159, 146, 130, 226, 128, 141, 226, 153, 130, 239, 184, 143], none⟩,
  ⟨b!"guitar", some [240, 159, 142, 184], none⟩,
  ⟨b!"gun", some [240, 159, 148, 171], none⟩,
  ⟨b!"haircut", some [240, 159, 146, 135], none⟩,
  ⟨b!"hamburger", some [240, 159, 141, 148], none⟩,
  ⟨b!"hammer", some [240, 159, 148, 168], none⟩,
  ⟨b!"hamster", some [240, 159, 144, 185], none⟩,
  ⟨b!"hand", some [226, 156, 139], none⟩,
  ⟨b!"handbag", some [240, 159, 145, 156], none⟩,
  ⟨b!"hankey", some [240, 159, 146, 169], none⟩,
  ⟨b!"hash", some [35, 239, 184, 143, 226, 131, 163], none⟩,
  ⟨b!"hatched_chick", some [240, 159, 144, 165], none⟩,
  ⟨b!"hatching_chick", some [240, 159, 144, 163], none⟩,
  ⟨b!"headphones", some [240, 159, 142, 167], none⟩,
  ⟨b!"hear_no_evil", some [240, 159, 153, 137], none⟩,
  ⟨b!"heart", some [226, 157, 164, 239, 184, 143], none⟩,
  ⟨b!"heart_decoration", some [240, 159, 146, 159], none⟩,
  ⟨b!"heart_eyes", some [240, 159, 152, 141], none⟩,
  ⟨b!"heart_eyes_cat", some [240, 159, 152, 187], none⟩,
  ⟨b!"heartbeat", some [240, 159, 146, 147], none⟩,
  ⟨b!"heartpulse", some [240, 159, 146, 151], none⟩,
  ⟨b!"hearts", some [226, 153, 165, 239, 184, 143], none⟩,
  ⟨b!"heavy_check_mark", some [226, 156, 148, 239, 184, 143], none⟩,
  ⟨b!"heavy_division_sign", some [226, 158, 151], none⟩,
  ⟨b!"heavy_dollar_sign", some [240, 159, 146, 178], none⟩,
  ⟨b!"heavy_exclamation_mark", some [226, 157, 151], none⟩,
  ⟨b!"heavy_minus_sign", some [226, 158, 150], none⟩,
  ⟨b!"heavy_multiplication_x", some [226, 156, 150, 239, 184, 143], none⟩,
  ⟨b!"heavy_plus_sign", some [226, 158, 149], none⟩,
  ⟨b!"helicopter", some [240, 159, 154, 129], none⟩,
  ⟨b!"herb", some [240, 159, 140, 191], none⟩,
  ⟨b!"hibiscus", some [240, 159, 140, 186], none⟩,
  ⟨b!"high_brightness", some [240, 159, 148, 134], none⟩,
  ⟨b!"high_heel", some [240, 159, 145, 160], none⟩,
  ⟨b!"hocho", some [240, 159, 148, 170], none⟩,
  ⟨b!"honey_pot", some [240, 159, 141, 175], none⟩,
  ⟨b!"honeybee", some [240, 159, 144, 157], none⟩,
  ⟨b!"horse", some [240, 159, 144, 180], none⟩,
  ⟨b!"horse_racing", some [240, 159, 143, 135], none⟩,
  ⟨b!"hospital", some [240, 159, 143, 165], none⟩,
  ⟨b!"hotel", some [240, 159, 143, 168], none⟩,
  ⟨b!"hotsprings", some [226, 153, 168, 239, 184, 143], none⟩,
  ⟨b!"hourglass", some [226, 140, 155], none⟩,
  ⟨b!"hourglass_flowing_sand", some [226, 143, 179], none⟩,
  ⟨b!"house", some [240, 159, 143, 160], none⟩,
  ⟨b!"house_with_garden", some [240, 159, 143, 161], none⟩,
  ⟨b!"hurtrealbad", none, some b!"https://github.githubassets.com/images/icons/emoji/hurtrealbad.png"⟩,
  ⟨b!"hushed", some [240, 159, 152, 175], none⟩,
  ⟨b!"ice_cream", some [240, 159, 141, 168], none⟩,
  ⟨b!"icecream", some [240, 159, 141, 166], none⟩,
  ⟨b!"id", some [240, 159, 134, 148], none⟩,
  ⟨b!"ideograph_advantage", some [240, 159, 137, 144], none⟩,
  ⟨b!"imp", some [240, 159, 145, 191], none⟩,
  ⟨b!"inbox_tray", some [240, 159, 147, 165], none⟩,
  ⟨b!"incoming_envelope", some [240, 159, 147, 168], none⟩,
  ⟨b!"information_desk_person", some [240, 159, 146, 129], none⟩,
  ⟨b!"information_source", some [226, 132, 185, 239, 184, 143], none⟩,
  ⟨b!"innocent", some [240, 159, 152, 135], none⟩,
  ⟨b!"interrobang", some [226, 129, 137, 239, 184, 143], none⟩,
  ⟨b!"iphone", some [240, 159, 147, 177], none⟩,
  ⟨b!"it", some [240, 159, 135, 174, 240, 159, 135, 185], none⟩,
  ⟨b!"izakaya_lantern", some [240, 159, 143, 174], none⟩,
  ⟨b!"jack_o_lantern", some [240, 159, 142, 131], none⟩]

/-- emoji_data.h, entries 400 to 499. -/
def table4 : List Entry := [
  ⟨b!"japan", some [240, 159, 151, 190], none⟩,
  ⟨b!"japanese_castle", some [240, 159, 143, 175], none⟩,
  ⟨b!"japanese_goblin", some [240, 159, 145, 186], none⟩,
  ⟨b!"japanese_ogre", some [240, 159, 145, 185], none⟩,
  ⟨b!"jeans", some [240, 159, 145, 150], none⟩,
  ⟨b!"joy", some [240, 159, 152, 130], none⟩,
  ⟨b!"joy_cat", some [240, 159, 152, 185], none⟩,
  ⟨b!"jp", some [240, 159, 135, 175, 240, 159, 135, 181], none⟩,
  ⟨b!"key", some [240, 159, 148, 145], none⟩,
  ⟨b!"keycap_ten", some [240, 159, 148, 159], none⟩,
  ⟨b!"kimono", some [240, 159, 145, 152], none⟩,
  ⟨b!"kiss", some [240, 159, 146, 139], none⟩,
  ⟨b!"kissing", some [240, 159, 152, 151], none⟩,
  ⟨b!"kissing_cat", some [240, 159, 152, 189], none⟩,
  ⟨b!"kissing_closed_eyes", some [240, 159, 152, 154], none⟩,
  ⟨b!"kissing_heart", some [240, 159, 152, 152], none⟩,
  ⟨b!"kissing_smiling_eyes", some [240, 159, 152, 153], none⟩,
  ⟨b!"koala", some [240, 159, 144, 168], none⟩,
  ⟨b!"koko", some [240, 159, 136, 129], none⟩,
  ⟨b!"kr", some [240, 159, 135, 176, 240, 159, 135, 183], none⟩,
  ⟨b!"large_blue_circle", some [240, 159, 148, 181], none⟩,
  ⟨b!"large_blue_diamond", some [240, 159, 148, 183], none⟩,
  ⟨b!"large_orange_diamond", some [240, 159, 148, 182], none⟩,
  ⟨b!"last_quarter_moon", some [240, 159, 140, 151], none⟩,
  ⟨b!"last_quarter_moon_with_face", some [240, 159, 140, 156], none⟩,
  ⟨b!"laughing", some [240, 159, 152, 134], none⟩,
  ⟨b!"leaves", some [240, 159, 141, 131], none⟩,
  ⟨b!"ledger", some [240, 159, 147, 146], none⟩,
  ⟨b!"left_luggage", some [240, 159, 155, 133], none⟩,
  ⟨b!"left_right_arrow", some [226, 134, 148, 239, 184, 143], none⟩,
  ⟨b!"leftwards_arrow_with_hook", some [226, 134, 169, 239, 184, 143], none⟩,
  ⟨b!"lemon", some [240, 159, 141, 139], none⟩,
  ⟨b!"leo", some [226, 153, 140], none⟩,
  ⟨b!"leopard", some [240, 159, 144, 134], none⟩,
  ⟨b!"libra", some [226, 153, 142], none⟩,
  ⟨b!"light_rail", some [240, 159, 154, 136], none⟩,
  ⟨b!"link", some [240, 159, 148, 151], none⟩,
  ⟨b!"lips", some [240, 159, 145, 132], none⟩,
  ⟨b!"lipstick", some [240, 159, 146, 132], none⟩,
  ⟨b!"lock", some [240, 159, 148, 146], none⟩,
  ⟨b!"lock_with_ink_pen", some [240, 159, 148, 143], none⟩,
  ⟨b!"lollipop", some [240, 159, 141, 173], none⟩,
  ⟨b!"loop", some [226, 158, 191], none⟩,
  ⟨b!"loudspeaker", some [240, 159, 147, 162], none⟩,
  ⟨b!"love_hotel", some [240, 159, 143, 169], none⟩,
  ⟨b!"love_letter", some [240, 159, 146, 140], none⟩,
  ⟨b!"low_brightness", some [240, 159, 148, 133], none⟩,
  ⟨b!"m", some [226, 147, 130, 239, 184, 143], none⟩,
  ⟨b!"mag", some [240, 159, 148, 141], none⟩,
  ⟨b!"mag_right", some [240, 159, 148, 142], none⟩,
  ⟨b!"mahjong", some [240, 159, 128, 132], none⟩,
  ⟨b!"mailbox", some [240, 159, 147, 171], none⟩,
  ⟨b!"mailbox_closed", some [240, 159, 147, 170], none⟩,
  ⟨b!"mailbox_with_mail", some [240, 159, 147, 172], none⟩,
  ⟨b!"mailbox_with_no_mail", some [240, 159, 147, 173], none⟩,
  ⟨b!"man", some [240, 159, 145, 168], none⟩,
  ⟨b!"man_with_gua_pi_mao", some [240, 159, 145, 178], none⟩,
  ⟨b!"man_with_turban", some [240, 159, 145, 179, 226, 128, 141, 226, 153, 130, 239, 184, 143], none⟩,
  ⟨b!"mans_shoe", some [240, 159, 145, 158], none⟩,
  ⟨b!"maple_leaf", some [240, 159, 141, 129], none⟩,
  ⟨b!"mask", some [240, 159, 152, 183], none⟩,
  ⟨b!"massage", some [240, 159, 146, 134], none⟩,
  ⟨b!"meat_on_bone", some [240, 159, 141, 150], none⟩,
  ⟨b!"mega", some [240, 159, 147, 163], none⟩,
  ⟨b!"melon", some [240, 159, 141, 136], none⟩,
  ⟨b!"memo", some [240, 159, 147, 157], none⟩,
  ⟨b!"mens", some [240, 159, 154, 185], none⟩,
  ⟨b!"metal", some [240, 159, 164, 152], none⟩,
  ⟨b!"metro", some [240, 159, 154, 135], none⟩,
  ⟨b!"microphone", some [240, 159, 142, 164], none⟩,
  ⟨b!"microscope", some [240, 159, 148, 172], none⟩,
  ⟨b!"milky_way", some [240, 159, 140, 140], none⟩,
  ⟨b!"minibus", some [240, 159, 154, 144], none⟩,
  ⟨b!"minidisc", some [240, 159, 146, 189], none⟩,
  ⟨b!"mobile_phone_off", some [240, 159, 147, 180], none⟩,
  ⟨b!"money_with_wings", some [240, 159, 146, 184], none⟩,
  ⟨b!"moneybag", some [240, 159, 146, 176], none⟩,
  ⟨b!"monkey", some [240, 159, 144, 146], none⟩,
  ⟨b!"monkey_face", some [240, 159, 144, 181], none⟩,
  ⟨b!"monorail", some [240, 159, 154, 157], none⟩,
  ⟨b!"moon", some [240, 159, 140, 148], none⟩,
  ⟨b!"mortar_board", some [240, 159, 142, 147], none⟩,
  ⟨b!"mount_fuji", some [240, 159, 151, 187], none⟩,
  ⟨b!"mountain_bicyclist", some [240, 159, 154, 181], none⟩,
  ⟨b!"mountain_cableway", some [240, 159, 154, 160], none⟩,
  ⟨b!"mountain_railway", some [240, 159, 154, 158], none⟩,
  ⟨b!"mouse", some [240, 159, 144, 173], none⟩,
  ⟨b!"mouse2", some [240, 159, 144, 129], none⟩,
  ⟨b!"movie_camera", some [240, 159, 142, 165], none⟩,
  ⟨b!"moyai", some [240, 159, 151, 191], none⟩,
  ⟨b!"muscle", some [240, 159, 146, 170], none⟩,
  ⟨b!"mushroom", some [240, 159, 141, 132], none⟩,
  ⟨b!"musical_keyboard", some [240, 159, 142, 185], none⟩,
  ⟨b!"musical_note", some [240, 159, 142, 181], none⟩,
  ⟨b!"musical_score", some [240, 159, 142, 188], none⟩,
  ⟨b!"mute", some [240, 159, 148, 135], none⟩,
  ⟨b!"nail_care", some [240, 159, 146, 133], none⟩,
  ⟨b!"name_badge", some [240, 159, 147, 155], none⟩,
  ⟨b!"neckbeard", none, some b!"https://github.githubassets.com/images/icons/emoji/neckbeard.png"⟩,
  ⟨b!"necktie", some [240, 159, 145, 148], none⟩]

/-- emoji_data.h, entries 500 to 599. -/
def table5 : List Entry := [
  ⟨b!"negative_squared_cross_mark", some [226, 157, 142], none⟩,
  ⟨b!"neutral_face", some [240, 159, 152, 144], none⟩,
  ⟨b!"new", some [240, 159, 134, 149], none⟩,
  ⟨b!"new_moon", some [240, 159, 140, 145], none⟩,
  ⟨b!"new_moon_with_face", some [240, 159, 140, 154], none⟩,
  ⟨b!"newspaper", some [240, 159, 147, 176], none⟩,
  ⟨b!"ng", some [240, 159, 134, 150], none⟩,
  ⟨b!"nine", some [57, 239, 184, 143, 226, 131, 163], none⟩,
  ⟨b!"no_bell", some [240, 159, 148, 149], none⟩,
  ⟨b!"no_bicycles", some [240, 159, 154, 179], none⟩,
  ⟨b!"no_entry", some [226, 155, 148], none⟩,
  ⟨b!"no_entry_sign", some [240, 159, 154, 171], none⟩,
  ⟨b!"no_good", some [240, 159, 153, 133], none⟩,
  ⟨b!"no_mobile_phones", some [240, 159, 147, 181], none⟩,
  ⟨b!"no_mouth", some [240, 159, 152, 182], none⟩,
  ⟨b!"no_pedestrians", some [240, 159, 154, 183], none⟩,
  ⟨b!"no_smoking", some [240, 159, 154, 173], none⟩,
  ⟨b!"non-potable_water", some [240, 159, 154, 177], none⟩,
  ⟨b!"nose", some [240, 159, 145, 131], none⟩,
  ⟨b!"notebook", some [240, 159, 147, 147], none⟩,
  ⟨b!"notebook_with_decorative_cover", some [240, 159, 147, 148], none⟩,
  ⟨b!"notes", some [240, 159, 142, 182], none⟩,
  ⟨b!"nut_and_bolt", some [240, 159, 148, 169], none⟩,
  ⟨b!"o", some [226, 173, 149], none⟩,
  ⟨b!"o2", some [240, 159, 133, 190, 239, 184, 143], none⟩,
  ⟨b!"ocean", some [240, 159, 140, 138], none⟩,
  ⟨b!"octocat", none, some b!"https://github.githubassets.com/images/icons/emoji/octocat.png"⟩,
  ⟨b!"octopus", some [240, 159, 144, 153], none⟩,
  ⟨b!"oden", some [240, 159, 141, 162], none⟩,
  ⟨b!"office", some [240, 159, 143, 162], none⟩,
  ⟨b!"ok", some [240, 159, 134, 151], none⟩,
  ⟨b!"ok_hand", some [240, 159, 145, 140], none⟩,
  ⟨b!"ok_woman", some [240, 159, 153, 134, 226, 128, 141, 226, 153, 128, 239, 184, 143], none⟩,
  ⟨b!"older_man", some [240, 159, 145, 180], none⟩,
  ⟨b!"older_woman", some [240, 159, 145, 181], none⟩,
  ⟨b!"on", some [240, 159, 148, 155], none⟩,
  ⟨b!"oncoming_automobile", some [240, 159, 154, 152], none⟩,
  ⟨b!"oncoming_bus", some [240, 159, 154, 141], none⟩,
  ⟨b!"oncoming_police_car", some [240, 159, 154, 148], none⟩,
  ⟨b!"oncoming_taxi", some [240, 159, 154, 150], none⟩,
  ⟨b!"one", some [49, 239, 184, 143, 226, 131, 163], none⟩,
  ⟨b!"open_file_folder", some [240, 159, 147, 130], none⟩,
  ⟨b!"open_hands", some [240, 159, 145, 144], none⟩,
  ⟨b!"open_mouth", some [240, 159, 152, 174], none⟩,
  ⟨b!"ophiuchus", some [226, 155, 142], none⟩,
  ⟨b!"orange_book", some [240, 159, 147, 153], none⟩,
  ⟨b!"outbox_tray", some [240, 159, 147, 164], none⟩,
  ⟨b!"ox", some [240, 159, 144, 130], none⟩,
  ⟨b!"page_facing_up", some [240, 159, 147, 132], none⟩,
  ⟨b!"page_with_curl", some [240, 159, 147, 131], none⟩,
  ⟨b!"pager", some [240, 159, 147, 159], none⟩,
  ⟨b!"palm_tree", some [240, 159, 140, 180], none⟩,
  ⟨b!"panda_face", some [240, 159, 144, 188], none⟩,
  ⟨b!"paperclip", some [240, 159, 147, 142], none⟩,
  ⟨b!"parking", some [240, 159, 133, 191, 239, 184, 143], none⟩,
  ⟨b!"part_alternation_mark", some [227, 128, 189, 239, 184, 143], none⟩,
  ⟨b!"partly_sunny", some [226, 155, 133], none⟩,
  ⟨b!"passport_control", some [240, 159, 155, 130], none⟩,
  ⟨b!"paw_prints", some [240, 159, 144, 190], none⟩,
  ⟨b!"peach", some [240, 159, 141, 145], none⟩,
  ⟨b!"pear", some [240, 159, 141, 144], none⟩,
  ⟨b!"pencil", some [240, 159, 147, 157], none⟩,
  ⟨b!"pencil2", some [226, 156, 143, 239, 184, 143], none⟩,
  ⟨b!"penguin", some [240, 159, 144, 167], none⟩,
  ⟨b!"pensive", some [240, 159, 152, 148], none⟩,
  ⟨b!"performing_arts", some [240, 159, 142, 173], none⟩,
  ⟨b!"persevere", some [240, 159, 152, 163], none⟩,
  ⟨b!"phone", some [226, 152, 142, 239, 184, 143], none⟩,
  ⟨b!"pig", some [240, 159, 144, 183], none⟩,
  ⟨b!"pig2", some [240, 159, 144, 150], none⟩,
  ⟨b!"pig_nose", some [240, 159, 144, 189], none⟩,
  ⟨b!"pill", some [240, 159, 146, 138], none⟩,
  ⟨b!"pineapple", some [240, 159, 141, 141], none⟩,
  ⟨b!"pisces", some [226, 153, 147], none⟩,
  ⟨b!"pizza", some [240, 159, 141, 149], none⟩,
  ⟨b!"point_down", some [240, 159, 145, 135], none⟩,
  ⟨b!"point_left", some [240, 159, 145, 136], none⟩,
  ⟨b!"point_right", some [240, 159, 145, 137], none⟩,
  ⟨b!"point_up", some [226, 152, 157, 239, 184, 143], none⟩,
  ⟨b!"point_up_2", some [240, 159, 145, 134], none⟩,
  ⟨b!"police_car", some [240, 159, 154, 147], none⟩,
  ⟨b!"poodle", some [240, 159, 144, 169], none⟩,
  ⟨b!"poop", some [240, 159, 146, 169], none⟩,
  ⟨b!"post_office", some [240, 159, 143, 163], none⟩,
  ⟨b!"postal_horn", some [240, 159, 147, 175], none⟩,
  ⟨b!"postbox", some [240, 159, 147, 174], none⟩,
  ⟨b!"potable_water", some [240, 159, 154, 176], none⟩,
  ⟨b!"pouch", some [240, 159, 145, 157], none⟩,
  ⟨b!"poultry_leg", some [240, 159, 141, 151], none⟩,
  ⟨b!"pound", some [240, 159, 146, 183], none⟩,
  ⟨b!"pouting_cat", some [240, 159, 152, 190], none⟩,
  ⟨b!"pray", some [240, 159, 153, 143], none⟩,
  ⟨b!"princess", some [240, 159, 145, 184], none⟩,
  ⟨b!"punch", some [240, 159, 145, 138], none⟩,
  ⟨b!"purple_heart", some [240, 159, 146, 156], none⟩,
  ⟨b!"purse", some [240, 159, 145, 155], none⟩,
  ⟨b!"pushpin", some [240, 159, 147, 140], none⟩,
  ⟨b!"put_litter_in_its_place", some [240, 159, 154, 174], none⟩,
  ⟨b!"question", some [226, 157, 147], none⟩,
  ⟨b!"rabbit", some [240, 159, 144, 176], none⟩]

/-- emoji_data.h, entries 600 to 699. -/
def table6 : List Entry := [
  ⟨b!"rabbit2", some [240, 159, 144, 135], none⟩,
  ⟨b!"racehorse", some [240, 159, 144, 142], none⟩,
  ⟨b!"radio", some [240, 159, 147, 187], none⟩,
  ⟨b!"radio_button", some [240, 159, 148, 152], none⟩,
  ⟨b!"rage", some [240, 159, 152, 161], none⟩,
  ⟨b!"rage1", none, some b!"https://github.githubassets.com/images/icons/emoji/rage1.png"⟩,
  ⟨b!"rage2", none, some b!"https://github.githubassets.com/images/icons/emoji/rage2.png"⟩,
  ⟨b!"rage3", none, some b!"https://github.githubassets.com/images/icons/emoji/rage3.png"⟩,
  ⟨b!"rage4", none, some b!"https://github.githubassets.com/images/icons/emoji/rage4.png"⟩,
  ⟨b!"railway_car", some [240, 159, 154, 131], none⟩,
  ⟨b!"rainbow", some [240, 159, 140, 136], none⟩,
  ⟨b!"raised_hand", some [226, 156, 139], none⟩,
  ⟨b!"raised_hands", some [240, 159, 153, 140], none⟩,
  ⟨b!"raising_hand", some [240, 159, 153, 139], none⟩,
  ⟨b!"ram", some [240, 159, 144, 143], none⟩,
  ⟨b!"ramen", some [240, 159, 141, 156], none⟩,
  ⟨b!"rat", some [240, 159, 144, 128], none⟩,
  ⟨b!"recycle", some [226, 153, 187, 239, 184, 143], none⟩,
  ⟨b!"red_car", some [240, 159, 154, 151], none⟩,
  ⟨b!"red_circle", some [240, 159, 148, 180], none⟩,
  ⟨b!"registered", some [194, 174, 239, 184, 143], none⟩,
  ⟨b!"relaxed", some [226, 152, 186, 239, 184, 143], none⟩,
  ⟨b!"relieved", some [240, 159, 152, 140], none⟩,
  ⟨b!"repeat", some [240, 159, 148, 129], none⟩,
  ⟨b!"repeat_one", some [240, 159, 148, 130], none⟩,
  ⟨b!"restroom", some [240, 159, 154, 187], none⟩,
  ⟨b!"revolving_hearts", some [240, 159, 146, 158], none⟩,
  ⟨b!"rewind", some [226, 143, 170], none⟩,
  ⟨b!"ribbon", some [240, 159, 142, 128], none⟩,
  ⟨b!"rice", some [240, 159, 141, 154], none⟩,
  ⟨b!"rice_ball", some [240, 159, 141, 153], none⟩,
  ⟨b!"rice_cracker", some [240, 159, 141, 152], none⟩,
  ⟨b!"rice_scene", some [240, 159, 142, 145], none⟩,
  ⟨b!"ring", some [240, 159, 146, 141], none⟩,
  ⟨b!"rocket", some [240, 159, 154, 128], none⟩,
  ⟨b!"roller_coaster", some [240, 159, 142, 162], none⟩,
  ⟨b!"rooster", some [240, 159, 144, 147], none⟩,
  ⟨b!"rose", some [240, 159, 140, 185], none⟩,
  ⟨b!"rotating_light", some [240, 159, 154, 168], none⟩,
  ⟨b!"round_pushpin", some [240, 159, 147, 141], none⟩,
  ⟨b!"rowboat", some [240, 159, 154, 163], none⟩,
  ⟨b!"ru", some [240, 159, 135, 183, 240, 159, 135, 186], none⟩,
  ⟨b!"rugby_football", some [240, 159, 143, 137], none⟩,
  ⟨b!"runner", some [240, 159, 143, 131], none⟩,
  ⟨b!"running", some [240, 159, 143, 131], none⟩,
  ⟨b!"running_shirt_with_sash", some [240, 159, 142, 189], none⟩,
  ⟨b!"sa", some [240, 159, 136, 130, 239, 184, 143], none⟩,
  ⟨b!"sagittarius", some [226, 153, 144], none⟩,
  ⟨b!"sailboat", some [226, 155, 181], none⟩,
  ⟨b!"sake", some [240, 159, 141, 182], none⟩,
  ⟨b!"sandal", some [240, 159, 145, 161], none⟩,
  ⟨b!"santa", some [240, 159, 142, 133], none⟩,
  ⟨b!"satellite", some [240, 159, 147, 161], none⟩,
  ⟨b!"satisfied", some [240, 159, 152, 134], none⟩,
  ⟨b!"saxophone", some [240, 159, 142, 183], none⟩,
  ⟨b!"school", some [240, 159, 143, 171], none⟩,
  ⟨b!"school_satchel", some [240, 159, 142, 146], none⟩,
  ⟨b!"scissors", some [226, 156, 130, 239, 184, 143], none⟩,
  ⟨b!"scorpius", some [226, 153, 143], none⟩,
  ⟨b!"scream", some [240, 159, 152, 177], none⟩,
  ⟨b!"scream_cat", some [240, 159, 153, 128], none⟩,
  ⟨b!"scroll", some [240, 159, 147, 156], none⟩,
  ⟨b!"seat", some [240, 159, 146, 186], none⟩,
  ⟨b!"secret", some [227, 138, 153, 239, 184, 143], none⟩,
  ⟨b!"see_no_evil", some [240, 159, 153, 136], none⟩,
  ⟨b!"seedling", some [240, 159, 140, 177], none⟩,
  ⟨b!"seven", some [55, 239, 184, 143, 226, 131, 163], none⟩,
  ⟨b!"shaved_ice", some [240, 159, 141, 167], none⟩,
  ⟨b!"sheep", some [240, 159, 144, 145], none⟩,
  ⟨b!"shell", some [240, 159, 144, 154], none⟩,
  ⟨b!"ship", some [240, 159, 154, 162], none⟩,
  ⟨b!"shirt", some [240, 159, 145, 149], none⟩,
  ⟨b!"shit", some [240, 159, 146, 169], none⟩,
  ⟨b!"shoe", some [240, 159, 145, 158], none⟩,
  ⟨b!"shower", some [240, 159, 154, 191], none⟩,
  ⟨b!"signal_strength", some [240, 159, 147, 182], none⟩,
  ⟨b!"six", some [54, 239, 184, 143, 226, 131, 163], none⟩,
  ⟨b!"six_pointed_star", some [240, 159, 148, 175], none⟩,
  ⟨b!"ski", some [240, 159, 142, 191], none⟩,
  ⟨b!"skull", some [240, 159, 146, 128], none⟩,
  ⟨b!"sleeping", some [240, 159, 152, 180], none⟩,
  ⟨b!"sleepy", some [240, 159, 152, 170], none⟩,
  ⟨b!"slot_machine", some [240, 159, 142, 176], none⟩,
  ⟨b!"small_blue_diamond", some [240, 159, 148, 185], none⟩,
  ⟨b!"small_orange_diamond", some [240, 159, 148, 184], none⟩,
  ⟨b!"small_red_triangle", some [240, 159, 148, 186], none⟩,
  ⟨b!"small_red_triangle_down", some [240, 159, 148, 187], none⟩,
  ⟨b!"smile", some [240, 159, 152, 132], none⟩,
  ⟨b!"smile_cat", some [240, 159, 152, 184], none⟩,
  ⟨b!"smiley", some [240, 159, 152, 131], none⟩,
  ⟨b!"smiley_cat", some [240, 159, 152, 186], none⟩,
  ⟨b!"smiling_imp", some [240, 159, 152, 136], none⟩,
  ⟨b!"smirk", some [240, 159, 152, 143], none⟩,
  ⟨b!"smirk_cat", some [240, 159, 152, 188], none⟩,
  ⟨b!"smoking", some [240, 159, 154, 172], none⟩,
  ⟨b!"snail", some [240, 159, 144, 140], none⟩,
  ⟨b!"snake", some [240, 159, 144, 141], none⟩,
  ⟨b!"snowboarder", some [240, 159, 143, 130], none⟩,
  ⟨b!"snowflake", some [226, 157, 132, 239, 184, 143], none⟩,
  ⟨b!"snowman", some [226, 155, 132], none⟩]

/-- emoji_data.h, entries 700 to 799. -/
def table7 : List Entry := [
  ⟨b!"sob", some [240, 159, 152, 173], none⟩,
  ⟨b!"soccer", some [226, 154, 189], none⟩,
  ⟨b!"soon", some [240, 159, 148, 156], none⟩,
  ⟨b!"sos", some [240, 159, 134, 152], none⟩,
  ⟨b!"sound", some [240, 159, 148, 137], none⟩,
  ⟨b!"space_invader", some [240, 159, 145, 190], none⟩,
  ⟨b!"spades", some [226, 153, 160, 239, 184, 143], none⟩,
  ⟨b!"spaghetti", some [240, 159, 141, 157], none⟩,
  ⟨b!"sparkler", some [240, 159, 142, 135], none⟩,
  ⟨b!"sparkles", some [226, 156, 168], none⟩,
  ⟨b!"sparkling_heart", some [240, 159, 146, 150], none⟩,
  ⟨b!"speak_no_evil", some [240, 159, 153, 138], none⟩,
  ⟨b!"speaker", some [240, 159, 148, 136], none⟩,
  ⟨b!"speech_balloon", some [240, 159, 146, 172], none⟩,
  ⟨b!"speedboat", some [240, 159, 154, 164], none⟩,
  ⟨b!"star", some [226, 173, 144], none⟩,
  ⟨b!"star2", some [240, 159, 140, 159], none⟩,
  ⟨b!"stars", some [240, 159, 140, 160], none⟩,
  ⟨b!"station", some [240, 159, 154, 137], none⟩,
  ⟨b!"statue_of_liberty", some [240, 159, 151, 189], none⟩,
  ⟨b!"steam_locomotive", some [240, 159, 154, 130], none⟩,
  ⟨b!"stew", some [240, 159, 141, 178], none⟩,
  ⟨b!"straight_ruler", some [240, 159, 147, 143], none⟩,
  ⟨b!"strawberry", some [240, 159, 141, 147], none⟩,
  ⟨b!"stuck_out_tongue", some [240, 159, 152, 155], none⟩,
  ⟨b!"stuck_out_tongue_closed_eyes", some [240, 159, 152, 157], none⟩,
  ⟨b!"stuck_out_tongue_winking_eye", some [240, 159, 152, 156], none⟩,
  ⟨b!"sun_with_face", some [240, 159, 140, 158], none⟩,
  ⟨b!"sunflower", some [240, 159, 140, 187], none⟩,
  ⟨b!"sunglasses", some [240, 159, 152, 142], none⟩,
  ⟨b!"sunny", some [226, 152, 128, 239, 184, 143], none⟩,
  ⟨b!"sunrise", some [240, 159, 140, 133], none⟩,
  ⟨b!"sunrise_over_mountains", some [240, 159, 140, 132], none⟩,
  ⟨b!"surfer", some [240, 159, 143, 132], none⟩,
  ⟨b!"sushi", some [240, 159, 141, 163], none⟩,
  ⟨b!"suspect", none, some b!"https://github.githubassets.com/images/icons/emoji/suspect.png"⟩,
  ⟨b!"suspension_railway", some [240, 159, 154, 159], none⟩,
  ⟨b!"sweat", some [240, 159, 152, 147], none⟩,
  ⟨b!"sweat_drops", some [240, 159, 146, 166], none⟩,
  ⟨b!"sweat_smile", some [240, 159, 152, 133], none⟩,
  ⟨b!"sweet_potato", some [240, 159, 141, 160], none⟩,
  ⟨b!"swimmer", some [240, 159, 143, 138], none⟩,
  ⟨b!"symbols", some [240, 159, 148, 163], none⟩,
  ⟨b!"syringe", some [240, 159, 146, 137], none⟩,
  ⟨b!"tada", some [240, 159, 142, 137], none⟩,
  ⟨b!"tanabata_tree", some [240, 159, 142, 139], none⟩,
  ⟨b!"tangerine", some [240, 159, 141, 138], none⟩,
  ⟨b!"taurus", some [226, 153, 137], none⟩,
  ⟨b!"taxi", some [240, 159, 154, 149], none⟩,
  ⟨b!"tea", some [240, 159, 141, 181], none⟩,
  ⟨b!"telephone", some [226, 152, 142, 239, 184, 143], none⟩,
  ⟨b!"telephone_receiver", some [240, 159, 147, 158], none⟩,
  ⟨b!"telescope", some [240, 159, 148, 173], none⟩,
  ⟨b!"tennis", some [240, 159, 142, 190], none⟩,
  ⟨b!"tent", some [226, 155, 186], none⟩,
  ⟨b!"thought_balloon", some [240, 159, 146, 173], none⟩,
  ⟨b!"three", some [51, 239, 184, 143, 226, 131, 163], none⟩,
  ⟨b!"thumbsdown", some [240, 159, 145, 142], none⟩,
  ⟨b!"thumbsup", some [240, 159, 145, 141], none⟩,
  ⟨b!"ticket", some [240, 159, 142, 171], none⟩,
  ⟨b!"tiger", some [240, 159, 144, 175], none⟩,
  ⟨b!"tiger2", some [240, 159, 144, 133], none⟩,
  ⟨b!"tired_face", some [240, 159, 152, 171], none⟩,
  ⟨b!"tm", some [226, 132, 162, 239, 184, 143], none⟩,
  ⟨b!"toilet", some [240, 159, 154, 189], none⟩,
  ⟨b!"tokyo_tower", some [240, 159, 151, 188], none⟩,
  ⟨b!"tomato", some [240, 159, 141, 133], none⟩,
  ⟨b!"tongue", some [240, 159, 145, 133], none⟩,
  ⟨b!"top", some [240, 159, 148, 157], none⟩,
  ⟨b!"tophat", some [240, 159, 142, 169], none⟩,
  ⟨b!"tractor", some [240, 159, 154, 156], none⟩,
  ⟨b!"traffic_light", some [240, 159, 154, 165], none⟩,
  ⟨b!"train", some [240, 159, 154, 139], none⟩,
  ⟨b!"train2", some [240, 159, 154, 134], none⟩,
  ⟨b!"tram", some [240, 159, 154, 138], none⟩,
  ⟨b!"triangular_flag_on_post", some [240, 159, 154, 169], none⟩,
  ⟨b!"triangular_ruler", some [240, 159, 147, 144], none⟩,
  ⟨b!"trident", some [240, 159, 148, 177], none⟩,
  ⟨b!"triumph", some [240, 159, 152, 164], none⟩,
  ⟨b!"trolleybus", some [240, 159, 154, 142], none⟩,
  ⟨b!"trollface", none, some b!"https://github.githubassets.com/images/icons/emoji/trollface.png"⟩,
  ⟨b!"trophy", some [240, 159, 143, 134], none⟩,
  ⟨b!"tropical_drink", some [240, 159, 141, 185], none⟩,
  ⟨b!"tropical_fish", some [240, 159, 144, 160], none⟩,
  ⟨b!"truck", some [240, 159, 154, 154], none⟩,
  ⟨b!"trumpet", some [240, 159, 142, 186], none⟩,
  ⟨b!"tshirt", some [240, 159, 145, 149], none⟩,
  ⟨b!"tulip", some [240, 159, 140, 183], none⟩,
  ⟨b!"turtle", some [240, 159, 144, 162], none⟩,
  ⟨b!"tv", some [240, 159, 147, 186], none⟩,
  ⟨b!"twisted_rightwards_arrows", some [240, 159, 148, 128], none⟩,
  ⟨b!"two", some [50, 239, 184, 143, 226, 131, 163], none⟩,
  ⟨b!"two_hearts", some [240, 159, 146, 149], none⟩,
  ⟨b!"two_men_holding_hands", some [240, 159, 145, 172], none⟩,
  ⟨b!"two_women_holding_hands", some [240, 159, 145, 173], none⟩,
  ⟨b!"u5272", some [240, 159, 136, 185], none⟩,
  ⟨b!"u5408", some [240, 159, 136, 180], none⟩,
  ⟨b!"u55b6", some [240, 159, 136, 186], none⟩,
  ⟨b!"u6307", some [240, 159, 136, 175], none⟩,
  ⟨b!"u6708", some [240, 159, 136, 183, 239, 184, 143], none⟩]

/-- emoji_data.h, entries 800 to 860. -/
def table8 : List Entry := [
  ⟨b!"u6709", some [240, 159, 136, 182], none⟩,
  ⟨b!"u6e80", some [240, 159, 136, 181], none⟩,
  ⟨b!"u7121", some [240, 159, 136, 154], none⟩,
  ⟨b!"u7533", some [240, 159, 136, 184], none⟩,
  ⟨b!"u7981", some [240, 159, 136, 178], none⟩,
  ⟨b!"u7a7a", some [240, 159, 136, 179], none⟩,
  ⟨b!"uk", some [240, 159, 135, 172, 240, 159, 135, 167], none⟩,
  ⟨b!"umbrella", some [226, 152, 148], none⟩,
  ⟨b!"unamused", some [240, 159, 152, 146], none⟩,
  ⟨b!"underage", some [240, 159, 148, 158], none⟩,
  ⟨b!"unlock", some [240, 159, 148, 147], none⟩,
  ⟨b!"up", some [240, 159, 134, 153], none⟩,
  ⟨b!"us", some [240, 159, 135, 186, 240, 159, 135, 184], none⟩,
  ⟨b!"v", some [226, 156, 140, 239, 184, 143], none⟩,
  ⟨b!"vertical_traffic_light", some [240, 159, 154, 166], none⟩,
  ⟨b!"vhs", some [240, 159, 147, 188], none⟩,
  ⟨b!"vibration_mode", some [240, 159, 147, 179], none⟩,
  ⟨b!"video_camera", some [240, 159, 147, 185], none⟩,
  ⟨b!"video_game", some [240, 159, 142, 174], none⟩,
  ⟨b!"violin", some [240, 159, 142, 187], none⟩,
  ⟨b!"virgo", some [226, 153, 141], none⟩,
  ⟨b!"volcano", some [240, 159, 140, 139], none⟩,
  ⟨b!"vs", some [240, 159, 134, 154], none⟩,
  ⟨b!"walking", some [240, 159, 154, 182], none⟩,
  ⟨b!"waning_crescent_moon", some [240, 159, 140, 152], none⟩,
  ⟨b!"waning_gibbous_moon", some [240, 159, 140, 150], none⟩,
  ⟨b!"warning", some [226, 154, 160, 239, 184, 143], none⟩,
  ⟨b!"watch", some [226, 140, 154], none⟩,
  ⟨b!"water_buffalo", some [240, 159, 144, 131], none⟩,
  ⟨b!"watermelon", some [240, 159, 141, 137], none⟩,
  ⟨b!"wave", some [240, 159, 145, 139], none⟩,
  ⟨b!"wavy_dash", some [227, 128, 176, 239, 184, 143], none⟩,
  ⟨b!"waxing_crescent_moon", some [240, 159, 140, 146], none⟩,
  ⟨b!"waxing_gibbous_moon", some [240, 159, 140, 148], none⟩,
  ⟨b!"wc", some [240, 159, 154, 190], none⟩,
  ⟨b!"weary", some [240, 159, 152, 169], none⟩,
  ⟨b!"wedding", some [240, 159, 146, 146], none⟩,
  ⟨b!"whale", some [240, 159, 144, 179], none⟩,
  ⟨b!"whale2", some [240, 159, 144, 139], none⟩,
  ⟨b!"wheelchair", some [226, 153, 191], none⟩,
  ⟨b!"white_check_mark", some [226, 156, 133], none⟩,
  ⟨b!"white_circle", some [226, 154, 170], none⟩,
  ⟨b!"white_flower", some [240, 159, 146, 174], none⟩,
  ⟨b!"white_square_button", some [240, 159, 148, 179], none⟩,
  ⟨b!"wind_chime", some [240, 159, 142, 144], none⟩,
  ⟨b!"wine_glass", some [240, 159, 141, 183], none⟩,
  ⟨b!"wink", some [240, 159, 152, 137], none⟩,
  ⟨b!"wolf", some [240, 159, 144, 186], none⟩,
  ⟨b!"woman", some [240, 159, 145, 169], none⟩,
  ⟨b!"womans_clothes", some [240, 159, 145, 154], none⟩,
  ⟨b!"womans_hat", some [240, 159, 145, 146], none⟩,
  ⟨b!"womens", some [240, 159, 154, 186], none⟩,
  ⟨b!"worried", some [240, 159, 152, 159], none⟩,
  ⟨b!"wrench", some [240, 159, 148, 167], none⟩,
  ⟨b!"x", some [226, 157, 140], none⟩,
  ⟨b!"yellow_heart", some [240, 159, 146, 155], none⟩,
  ⟨b!"yen", some [240, 159, 146, 180], none⟩,
  ⟨b!"yum", some [240, 159, 152, 139], none⟩,
  ⟨b!"zap", some [226, 154, 161], none⟩,
  ⟨b!"zero", some [48, 239, 184, 143, 226, 131, 163], none⟩,
  ⟨b!"zzz", some [240, 159, 146, 164], none⟩]

/-- emoji_data.h:17-938, the whole table. -/
def table : List Entry := table0 ++ table1 ++ table2 ++ table3 ++ table4 ++ table5 ++ table6 ++ table7 ++ table8

end Verif.Emoji
